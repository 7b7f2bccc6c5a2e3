import Verif.Functor.SumSpec
import Verif.Pdf.Props

namespace Zfit.Functor

open Zfit Zfit.Pdf

variable {S X P : Type}

/-! ### C25: the fractions -/

theorem sameSet_iff (a b : List String) : sameSet a b = true ↔ ∀ o, o ∈ a ↔ o ∈ b := by
  simp only [sameSet, Bool.and_eq_true, List.all_eq_true, List.contains_iff_mem]
  exact ⟨fun h o => ⟨h.1 o, h.2 o⟩, fun h => ⟨fun o => (h o).1, fun o => (h o).2⟩⟩

theorem allYields_some {pdfs : List (Comp S)} {ys : List (S → ℝ)} :
    allYields pdfs = some ys ↔ pdfs.map (·.yield) = ys.map some := by
  induction pdfs generalizing ys with
  | nil => cases ys <;> simp [allYields]
  | cons c cs ih =>
    unfold allYields
    cases hy : c.yield with
    | none => cases ys <;> simp [hy]
    | some y =>
      cases hr : allYields cs with
      | none =>
        cases ys with
        | nil => simp
        | cons z zs =>
          simp only [List.map_cons, List.cons.injEq, hy, reduceCtorEq, false_iff, not_and]
          intro _ h
          rw [ih.2 h] at hr
          cases hr
      | some zs =>
        have h0 := ih.1 hr
        cases ys with
        | nil => simp
        | cons w ws =>
          simp only [Option.some.injEq, List.cons.injEq, List.map_cons, hy, h0]
          constructor
          · rintro ⟨rfl, rfl⟩; exact ⟨rfl, rfl⟩
          · rintro ⟨rfl, h⟩
            exact ⟨rfl, List.map_injective_iff.2 (Option.some_injective _) h⟩

theorem allYields_none {pdfs : List (Comp S)} : allYields pdfs = none ↔ ∃ c ∈ pdfs, c.yield = none := by
  constructor
  · intro h
    by_contra hc
    push Not at hc
    have : ∃ ys : List (S → ℝ), pdfs.map (·.yield) = ys.map some := by
      clear h
      induction pdfs with
      | nil => exact ⟨[], rfl⟩
      | cons c cs ih =>
        obtain ⟨ys, hys⟩ := ih (fun d hd => hc d (List.mem_cons_of_mem _ hd))
        obtain ⟨y, hy⟩ := Option.ne_none_iff_exists'.1 (hc c (by simp))
        exact ⟨y :: ys, by simp [hy, hys]⟩
    obtain ⟨ys, hys⟩ := this
    rw [allYields_some.2 hys] at h
    cases h
  · rintro ⟨c, hc, hy⟩
    cases h : allYields pdfs with
    | none => rfl
    | some ys =>
      have h1 := allYields_some.1 h
      have h2 : c.yield ∈ pdfs.map (·.yield) := List.mem_map_of_mem hc
      rw [h1, hy] at h2
      simp at h2

/-- the checks of the observables passed, what remains -/
theorem preprocess_eq {fracs : List (S → ℝ)} {obs : Option (List String)} {pdfs : List (Comp S)}
    (h2 : 2 ≤ pdfs.length) (ho : ObsAgree obs pdfs) :
    preprocessInitSum fracs obs pdfs =
      match fracs, allYields pdfs with
        | [], none => .error .modelIncompatible
        | [], some ys => .ok ⟨ys.map (fun y σ => y σ / sumOf ys σ), false, some (sumOf ys)⟩
        | _, _ => (cleanFracs pdfs.length fracs).map (fun fs => ⟨fs, true, none⟩) := by
  match pdfs, h2 with
  | p :: q :: r, _ =>
    unfold preprocessInitSum
    simp only
    rw [if_neg]
    · rfl
    · rw [List.any_eq_true]
      rintro ⟨x, hx, hs⟩
      have := (sameSet_iff _ _).2 (ho x hx)
      simp only [List.head?_cons, Option.elim] at this
      rw [this] at hs
      cases hs

theorem preprocess_obs {fracs : List (S → ℝ)} {obs : Option (List String)} {pdfs : List (Comp S)}
    (h2 : 2 ≤ pdfs.length) (ho : ¬ ObsAgree obs pdfs) :
    preprocessInitSum fracs obs pdfs = .error .obsIncompatible := by
  match pdfs, h2 with
  | p :: q :: r, _ =>
    unfold preprocessInitSum
    simp only
    rw [if_pos]
    rw [List.any_eq_true]
    unfold ObsAgree at ho
    push Not at ho
    obtain ⟨x, hx, o, hs⟩ := ho
    refine ⟨x, hx, ?_⟩
    rw [Bool.not_eq_true', ← Bool.not_eq_true, sameSet_iff]
    intro hall
    have := hall o
    simp only [List.head?_cons, Option.elim] at hs
    tauto

/-- C25: with one fraction less than daughters the given ones are kept in their order, the last one is what is missing to one, and so they sum to
one, at every later value of the parameters. -/
theorem sum_fracs_complete {pdfs : List (Comp S)} {fracs : List (S → ℝ)} {obs : Option (List String)} {ext : ExtArg S}
    (hobs : ObsAgree obs pdfs) (hlen : fracs.length + 1 = pdfs.length) (h1 : fracs ≠ []) :
    ∃ s last, mkSum pdfs fracs obs ext = .ok s ∧ s.pdfs = pdfs ∧ s.fracs = fracs ++ [last] ∧
      ∀ σ, last σ = 1 - (fracs.map (· σ)).sum ∧ (s.fracs.map (· σ)).sum = 1 := by
  have h2 : 2 ≤ pdfs.length := by
    have : 0 < fracs.length := List.length_pos_iff.2 h1
    omega
  obtain ⟨f, fs, rfl⟩ := List.exists_cons_of_ne_nil h1
  refine ⟨⟨pdfs, f :: fs ++ [remaining (f :: fs)], (sumYield ⟨f :: fs ++ [remaining (f :: fs)], true, none⟩ ext).1,
    (sumYield ⟨f :: fs ++ [remaining (f :: fs)], true, none⟩ ext).2⟩, remaining (f :: fs), ?_, rfl, rfl, ?_⟩
  rotate_left
  · intro σ
    refine ⟨rfl, ?_⟩
    simp [remaining]
    ring
  · unfold mkSum
    rw [preprocess_eq h2 hobs]
    simp only [cleanFracs, if_pos hlen]
    rfl

/-- C25: with as many fractions as daughters they are used as they are. -/
theorem sum_fracs_as_given {pdfs : List (Comp S)} {fracs : List (S → ℝ)} {obs : Option (List String)} {ext : ExtArg S}
    (hobs : ObsAgree obs pdfs) (hlen : fracs.length = pdfs.length) (h2 : 2 ≤ pdfs.length) :
    ∃ s, mkSum pdfs fracs obs ext = .ok s ∧ s.pdfs = pdfs ∧ s.fracs = fracs := by
  obtain ⟨f, fs, rfl⟩ := List.exists_cons_of_ne_nil (l := fracs) (by intro h; simp [h] at hlen; omega)
  refine ⟨⟨pdfs, f :: fs, (sumYield ⟨f :: fs, true, none⟩ ext).1, (sumYield ⟨f :: fs, true, none⟩ ext).2⟩, ?_, rfl, rfl⟩
  · unfold mkSum
    rw [preprocess_eq h2 hobs]
    have : ¬ ((f :: fs).length + 1 = pdfs.length) := by omega
    simp only [cleanFracs, if_neg this, if_pos hlen]
    rfl

/-- C25: without fractions and all daughters extended the fractions are the yields over their sum, which is the yield of the sum; at every value
of the parameters at which this is not zero the fractions sum to one. -/
theorem sum_fracs_extended {pdfs : List (Comp S)} {obs : Option (List String)} (hobs : ObsAgree obs pdfs)
    (h2 : 2 ≤ pdfs.length) (ys : List (S → ℝ)) (hy : pdfs.map (·.yield) = ys.map some) :
    ∃ s Y, mkSum pdfs [] obs .none = .ok s ∧ mkSum pdfs [] obs .on = .ok s ∧ s.yield = some Y ∧
      s.fracs.length = pdfs.length ∧
      ∀ σ, Y σ = (ys.map (· σ)).sum ∧ s.fracs.map (· σ) = ys.map (fun y => y σ / Y σ) ∧
        (Y σ ≠ 0 → (s.fracs.map (· σ)).sum = 1) := by
  have hp : preprocessInitSum [] obs pdfs = .ok ⟨ys.map (fun y σ => y σ / sumOf ys σ), false, some (sumOf ys)⟩ := by
    rw [preprocess_eq h2 hobs, allYields_some.2 hy]
  refine ⟨⟨pdfs, ys.map (fun y σ => y σ / sumOf ys σ), some (sumOf ys), true⟩, sumOf ys, ?_, ?_, rfl, ?_, ?_⟩
  · unfold mkSum; rw [hp]; rfl
  · unfold mkSum; rw [hp]; rfl
  · have := congrArg List.length hy
    simpa using this.symm
  · intro σ
    refine ⟨rfl, by simp [Function.comp_def], fun h => ?_⟩
    simp only [List.map_map, Function.comp_def]
    have : ∀ (l : List (S → ℝ)) (Y : ℝ), (l.map (fun y => y σ / Y)).sum = (l.map (· σ)).sum / Y := by
      intro l Y
      induction l with
      | nil => simp
      | cons a l ih => simp [ih, add_div]
    rw [this]
    exact div_self h

/-- C25: exactly the following is rejected: fewer than two daughters, different observables, no fractions although
one of the daughters is not extended, and a number of fractions that is neither that of the daughters nor one less. -/
theorem sum_rejected_iff {pdfs : List (Comp S)} {fracs : List (S → ℝ)} {obs : Option (List String)} {ext : ExtArg S}
    (e : Err) :
    mkSum pdfs fracs obs ext = .error e ↔
      (pdfs.length < 2 ∧ e = .valueError) ∨
      (2 ≤ pdfs.length ∧ ¬ ObsAgree obs pdfs ∧ e = .obsIncompatible) ∨
      (2 ≤ pdfs.length ∧ ObsAgree obs pdfs ∧ e = .modelIncompatible ∧
        ((fracs = [] ∧ ∃ c ∈ pdfs, c.yield = none) ∨
         (fracs ≠ [] ∧ fracs.length ≠ pdfs.length ∧ fracs.length + 1 ≠ pdfs.length))) := by
  have hm : mkSum pdfs fracs obs ext = .error e ↔ preprocessInitSum fracs obs pdfs = .error e := by
    unfold mkSum
    cases preprocessInitSum fracs obs pdfs <;> simp [bind, Except.bind, pure, Except.pure]
  rw [hm]
  by_cases h2 : pdfs.length < 2
  · have : preprocessInitSum fracs obs pdfs = .error .valueError := by
      match pdfs, h2 with
      | [], _ => rfl
      | [_], _ => rfl
    rw [this]
    simp [h2, eq_comm]
  have h2' : 2 ≤ pdfs.length := by omega
  by_cases ho : ObsAgree obs pdfs
  · rw [preprocess_eq h2' ho]
    cases fracs with
    | nil =>
      cases hy : allYields pdfs with
      | none =>
        have := allYields_none.1 hy
        simp only [Except.error.injEq]
        constructor
        · rintro rfl
          exact .inr (.inr ⟨h2', ho, rfl, .inl ⟨trivial, this⟩⟩)
        · rintro (⟨h, _⟩ | ⟨_, h, _⟩ | ⟨_, _, h, _⟩)
          · exact absurd h h2
          · exact absurd ho h
          · exact h.symm
      | some ys =>
        have hn : ¬ ∃ c ∈ pdfs, c.yield = none := by
          rw [← allYields_none, hy]; simp
        simp [h2, ho, hn]
    | cons f fs =>
      have hne : f :: fs ≠ [] := by simp
      by_cases ha : (f :: fs).length + 1 = pdfs.length
      · simp only [cleanFracs, if_pos ha, Except.map, reduceCtorEq, false_iff]
        rintro (⟨h, _⟩ | ⟨_, h, _⟩ | ⟨_, _, _, ⟨h, _⟩ | ⟨_, _, h⟩⟩)
        · exact absurd h h2
        · exact absurd ho h
        · cases h
        · exact h ha
      · by_cases hb : (f :: fs).length = pdfs.length
        · simp only [cleanFracs, if_neg ha, if_pos hb, Except.map, reduceCtorEq, false_iff]
          rintro (⟨h, _⟩ | ⟨_, h, _⟩ | ⟨_, _, _, ⟨h, _⟩ | ⟨_, h, _⟩⟩)
          · exact absurd h h2
          · exact absurd ho h
          · cases h
          · exact h hb
        · simp only [cleanFracs, if_neg ha, if_neg hb, Except.map, Except.error.injEq]
          constructor
          · rintro rfl
            exact .inr (.inr ⟨h2', ho, rfl, .inr ⟨hne, hb, ha⟩⟩)
          · rintro (⟨h, _⟩ | ⟨_, h, _⟩ | ⟨_, _, h, _⟩)
            · exact absurd h h2
            · exact absurd ho h
            · exact h.symm
  · rw [preprocess_obs h2' ho]
    simp only [Except.error.injEq]
    constructor
    · rintro rfl
      exact .inr (.inl ⟨h2', ho, rfl⟩)
    · rintro (⟨h, _⟩ | ⟨_, _, h⟩ | ⟨_, h, _⟩)
      · exact absurd h h2
      · exact h.symm
      · exact absurd h ho

/-- the hypotheses of the theorems above: two daughters in the observable "x" with yields that are parameters -/
example : ObsAgree (S := ℝ × ℝ) none [⟨["x"], some Prod.fst⟩, ⟨["x"], some Prod.snd⟩] := by
  intro q hq o
  simp only [List.mem_cons, List.not_mem_nil, or_false] at hq
  rcases hq with rfl | rfl <;> simp

/-- The yield of a sum.  With given fractions the sum has the yield given as `extended`, and none without; a sum of extended PDFs without fractions
has the sum of their yields, and counts as automatically extended exactly in this case. -/
theorem sum_yield_spec (pre : Pre S) :
    (∀ y, sumYield pre (.yield y) = (some y, false)) ∧ sumYield pre .off = (none, false) ∧
    (pre.given = true → sumYield pre .none = (none, false) ∧ (sumYield pre .on).2 = false ∧ ∀ σ, (sumYield pre .on).1.map (· σ) = some 1) ∧
    (pre.given = false → sumYield pre .none = (pre.sumYields, true) ∧ sumYield pre .on = (pre.sumYields, true)) := by
  refine ⟨fun y => rfl, rfl, fun h => ?_, fun h => ?_⟩ <;> simp [sumYield, h]

/-! ### C69: copies -/

/-- C69: the copy of a sum that is not extended and whose fractions sum to one, at every value of the parameters, has
the same daughters and the same fractions; likewise the extended version made with `create_extended`. Missing from the full claim: the cases
of `sum_copy_violated`, `sum_copy_drops_yield_violated`. -/
theorem sum_copy_partial {s : SumPdf S} {obs : List String} (h2 : 2 ≤ s.pdfs.length) (hlen : s.fracs.length = s.pdfs.length)
    (hobs : ObsAgree (some obs) s.pdfs) (hy : s.yield = none) (hone : ∀ σ, (s.fracs.map (· σ)).sum = 1) :
    s.copy obs = .ok { s with auto := false } ∧
    ∀ y, s.createExtended obs y = .ok { s with yield := some y, auto := false } := by
  have hc : s.copy obs = .ok { s with auto := false } := by
    unfold SumPdf.copy
    rw [hy]
    simp only [Option.isSome_none, Bool.false_eq_true, if_false]
    have hl1 : s.fracs.dropLast.length + 1 = s.pdfs.length := by rw [List.length_dropLast]; omega
    have hne : s.fracs.dropLast ≠ [] := by
      intro h
      rw [h] at hl1
      simp at hl1
      omega
    obtain ⟨f, fs, hf⟩ := List.exists_cons_of_ne_nil hne
    have hs0 : s.fracs ≠ [] := by intro h; simp [h] at hne
    have hlast : remaining s.fracs.dropLast = s.fracs.getLast hs0 := by
      funext σ
      have h1 := hone σ
      rw [← List.dropLast_append_getLast hs0] at h1
      simp only [List.map_append, List.sum_append, List.map_cons, List.map_nil, List.sum_cons, List.sum_nil] at h1
      unfold remaining
      linarith
    unfold mkSum
    rw [preprocess_eq h2 hobs, hf]
    simp only [cleanFracs]
    rw [← hf, if_pos hl1, hlast, List.dropLast_append_getLast hs0]
    simp only [Except.map, except_bind_ok, except_pure, sumYield, if_true]
  refine ⟨hc, fun y => ?_⟩
  unfold SumPdf.createExtended
  rw [hy, hc]
  simp [hy]

/-- C69 is violated for fractions that do not sum to one (as many fractions as daughters are "used as they are"): the
copy, and the extended version, get another last fraction. -/
theorem sum_copy_violated :
    ∃ s c : SumPdf Unit, mkSum [⟨["x"], none⟩, ⟨["x"], none⟩] [fun _ => 1 / 2, fun _ => 1 / 4] none .none = .ok s ∧
      s.copy ["x"] = .ok c ∧ c.fracs.map (· ()) = [1 / 2, 1 / 2] ∧ s.fracs.map (· ()) = [1 / 2, 1 / 4] := by
  refine ⟨⟨[⟨["x"], none⟩, ⟨["x"], none⟩], [fun _ => 1 / 2, fun _ => 1 / 4], none, false⟩,
    ⟨[⟨["x"], none⟩, ⟨["x"], none⟩], [fun _ => 1 / 2, remaining [fun _ => 1 / 2]], none, false⟩, rfl, rfl, ?_, rfl⟩
  simp [remaining]
  norm_num

/-- C69 is violated for every extended sum: the copy is not extended. -/
theorem sum_copy_drops_yield_violated {s : SumPdf S} {obs : List String} {y : S → ℝ} (h2 : 2 ≤ s.pdfs.length)
    (hlen : s.fracs.length = s.pdfs.length) (hobs : ObsAgree (some obs) s.pdfs) (hy : s.yield = some y) :
    ∃ c, s.copy obs = .ok c ∧ c.fracs = s.fracs ∧ c.yield = none := by
  obtain ⟨f, fs, hf⟩ := List.exists_cons_of_ne_nil (l := s.fracs) (by intro h; simp [h] at hlen; omega)
  refine ⟨⟨s.pdfs, s.fracs, none, false⟩, ?_, rfl, rfl⟩
  unfold SumPdf.copy
  rw [hy]
  simp only [Option.isSome_some, if_true]
  unfold mkSum
  rw [preprocess_eq h2 hobs, hf]
  simp only [cleanFracs]
  rw [← hf, if_neg (by omega), if_pos hlen]
  rfl

/-! ### C25: what the sum computes -/

section eval

variable [DecidableEq P]

theorem weighted_ok (call : Daughter X P → Except Err ℝ) (v : Known X P → ℝ) (ks : List (Known X P)) (fracs : List ℝ)
    (h : ∀ k ∈ ks, call k.d = .ok (v k)) :
    weighted call (ks.map (·.d)) fracs = .ok (mix fracs (ks.map v)) := by
  induction ks generalizing fracs with
  | nil => simp [weighted, mix]
  | cons k ks ih =>
    cases fracs with
    | nil => simp [weighted, mix]
    | cons f fs =>
      simp only [List.map_cons, weighted]
      rw [h k (by simp), ih fs (fun q hq => h q (List.mem_cons_of_mem _ hq))]
      simp [mix, bind, Except.bind, pure, Except.pure]

theorem plainSum_ok (call : Daughter X P → Except Err ℝ) (v : Known X P → ℝ) (ks : List (Known X P))
    (h : ∀ k ∈ ks, call k.d = .ok (v k)) : plainSum call (ks.map (·.d)) = .ok (ks.map v).sum := by
  induction ks with
  | nil => simp [plainSum]
  | cons k ks ih =>
    simp only [List.map_cons, plainSum]
    rw [h k (by simp), ih (fun q hq => h q (List.mem_cons_of_mem _ hq))]
    simp [bind, Except.bind, pure, Except.pure]

theorem mix_cons (f v : ℝ) (fs vs : List ℝ) : mix (f :: fs) (v :: vs) = v * f + mix fs vs := by simp [mix]

theorem mix_nil_left (vs : List ℝ) : mix [] vs = 0 := by simp [mix]

theorem mix_nil_right (fs : List ℝ) : mix fs [] = 0 := by simp [mix]

theorem mix_add {α : Type} (fs : List ℝ) (l : List α) (v w : α → ℝ) :
    mix fs (l.map (fun k => v k + w k)) = mix fs (l.map v) + mix fs (l.map w) := by
  induction l generalizing fs with
  | nil => simp [mix_nil_right]
  | cons a l ih =>
    cases fs with
    | nil => simp [mix_nil_left]
    | cons f fs => simp only [List.map_cons, mix_cons, ih]; ring

theorem mix_one {α : Type} (fs : List ℝ) (l : List α) (v : α → ℝ) (h : ∀ k ∈ l, v k = 1) (hl : fs.length = l.length) :
    mix fs (l.map v) = fs.sum := by
  induction l generalizing fs with
  | nil => cases fs <;> simp_all [mix_nil_right]
  | cons a l ih =>
    cases fs with
    | nil => simp at hl
    | cons f fs =>
      simp only [List.map_cons, mix_cons, List.sum_cons]
      rw [h a (by simp), ih fs (fun k hk => h k (List.mem_cons_of_mem _ hk)) (by simpa using hl)]
      ring

/-- the integrals of the sum -/
noncomputable def mixMass (ks : List (Known X P)) (fracs : List ℝ) (p : P) : ℝ := mix fracs (ks.map (·.mass p))

theorem total_mixMass (ks : List (Known X P)) (fracs : List ℝ) (limits : List P) :
    total (mixMass ks fracs) limits = mix fracs (ks.map (fun k => total k.μ limits / total k.μ k.d.norm)) := by
  induction limits with
  | nil =>
    have : ∀ (l : List (Known X P)) (fs : List ℝ), mix fs (l.map (fun k => total k.μ [] / total k.μ k.d.norm)) = 0 := by
      intro l
      induction l with
      | nil => intro fs; simp [mix_nil_right]
      | cons a l ih =>
        intro fs
        cases fs with
        | nil => simp [mix_nil_left]
        | cons f fs =>
          rw [List.map_cons, mix_cons, ih]
          simp [total]
    rw [this]
    rfl
  | cons p ps ih =>
    have h1 : total (mixMass ks fracs) (p :: ps) = mixMass ks fracs p + total (mixMass ks fracs) ps := by simp [total]
    rw [h1, ih]
    have h2 : (fun k : Known X P => total k.μ (p :: ps) / total k.μ k.d.norm)
        = fun k => k.mass p + total k.μ ps / total k.μ k.d.norm := by
      funext k
      simp [total, Known.mass, add_div]
    rw [h2, mix_add]
    rfl

variable {numInt : (X → Except Err ℝ) → List P → Except Err ℝ} {ks : List (Known X P)} {fracs : List ℝ}

/-- The sum of working daughters with fractions that sum to one, and yields that fit, is itself a working PDF whose
density is the weighted sum of the *normalised* densities of the daughters.  (So all of C30-C32 holds for it, and sums
can be nested.) -/
theorem sum_honest (hk : ∀ k ∈ ks, k.Ok) (hlen : fracs.length = ks.length) (hone : fracs.sum = 1)
    {yield : Option ℝ} {auto : Bool} (hy0 : ∀ y, yield = some y → y ≠ 0)
    (hauto : auto = true → ∃ Y, yield = some Y ∧ ks.map (fun k => k.d.impl.yield) = fracs.map (fun f => some (f * Y)))
    (hn : ∀ g : X → Except Err ℝ, (∀ x, g x = .ok (mix fracs (ks.map (·.density x)))) →
      ∀ limits, numInt g limits = .ok (total (mixMass ks fracs) limits)) :
    Honest (sumImpl (ks.map (·.d)) fracs yield auto numInt) (fun x => mix fracs (ks.map (·.density x)))
      (mixMass ks fracs) := by
  have hw : ∀ x, weighted (·.pdf x) (ks.map (·.d)) fracs = .ok (mix fracs (ks.map (·.density x))) := by
    intro x
    apply weighted_ok
    intro k hkm
    exact (pdf_value (hk k hkm).honest (hk k hkm).log x).2 _ (hk k hkm).norm
  have htot : ∀ n, (∀ k ∈ ks, k.d.norm = n) → total (mixMass ks fracs) n = 1 := by
    intro n hne
    rw [total_mixMass, mix_one _ _ _ _ hlen, hone]
    intro k hkm
    rw [hne k hkm]
    have := (hk k hkm).norm
    rw [hne k hkm] at this
    exact div_self this.ne'
  have hdens : ∀ x norm, normAgrees (ks.map (·.d)) norm = true →
      density (fun x => mix fracs (ks.map (·.density x))) (mixMass ks fracs) x norm = mix fracs (ks.map (·.density x)) := by
    intro x norm ha
    cases norm with
    | range n =>
      simp only [density]
      rw [htot n, div_one]
      intro k hkm
      simp only [normAgrees, List.all_map, List.all_eq_true, Function.comp_apply, decide_eq_true_eq] at ha
      exact ha k hkm
    | falseSpace => rfl
    | pyFalse => rfl
  refine ⟨?_, ?_, ?_, hy0, .inl hw, ?_, ?_, ?_, ?_, ?_, ?_⟩
  · rintro h hh x norm - -
    cases hh
    simp only
    split
    · rename_i ha
      rw [hw, hdens x norm ha]
      exact .inl rfl
    · exact .inr ⟨_, rfl, rfl⟩
  · intro h hh; cases hh
  · rintro h y hh hy x norm - -
    cases hh
    simp only
    split
    · rename_i ha
      simp only [Bool.and_eq_true] at ha
      rw [hdens x norm ha.1]
      left
      obtain ⟨Y, hY, hys⟩ := hauto ha.2
      have : yield = some y := hy
      rw [hY] at this
      obtain rfl : Y = y := by simpa using this
      have hlist : ∀ (l : List (Known X P)) (fs : List ℝ), (∀ k ∈ l, k.Ok) →
          l.map (fun k => k.d.impl.yield) = fs.map (fun f => some (f * Y)) →
          plainSum (·.extPdf x) (l.map (·.d)) = .ok (Y * mix fs (l.map (·.density x))) := by
        intro l
        induction l with
        | nil => intro fs _ _; simp [plainSum, mix_nil_right]
        | cons k l ih =>
          intro fs hl hfs
          cases fs with
          | nil => simp at hfs
          | cons f fs =>
            simp only [List.map_cons, List.cons.injEq] at hfs
            simp only [List.map_cons, plainSum, mix_cons]
            have hk0 := hl k (by simp)
            have he := (extended_scales hk0.honest hk0.log _ hfs.1 x [] _ hk0.norm).1
            have he' : k.d.extPdf x = .ok (k.f x / total k.μ k.d.norm * (f * Y)) := he
            rw [he', ih fs (fun q hq => hl q (List.mem_cons_of_mem _ hq)) hfs.2]
            simp only [bind, Except.bind, pure, Except.pure, Except.ok.injEq, Known.density]
            ring
      exact hlist ks fracs hk hys
    · exact .inr ⟨_, rfl, rfl⟩
  · intro h hh; cases hh
  · rintro h hh limits norm - hp
    cases hh
    have hi : weighted (·.integrate limits) (ks.map (·.d)) fracs = .ok (total (mixMass ks fracs) limits) := by
      rw [total_mixMass]
      apply weighted_ok
      intro k hkm
      exact (integrate_value (hk k hkm).honest (hk k hkm).log limits).2 _ (hk k hkm).norm
    cases norm with
    | range n => rcases hp with hp | hp <;> cases hp
    | falseSpace => cases hp
    | pyFalse => exact .inl hi
  · intro h hh; cases hh
  · intro limits h hh; cases hh
  · intro h hh; cases hh
  · intro g hg limits
    exact .inl (hn g hg limits)

/-- C25: the density of a sum is `Σ fracᵢ·pdfᵢ(x)` normalised by `Σ fracᵢ·∫pdfᵢ`, each `pdfᵢ` being normalised over its
own range; over the common range of the daughters it is `Σ fracᵢ·pdfᵢ(x)` itself. -/
theorem sum_pdf_value (hk : ∀ k ∈ ks, k.Ok) (hlen : fracs.length = ks.length) (hone : fracs.sum = 1)
    {yield : Option ℝ} (hy0 : ∀ y, yield = some y → y ≠ 0)
    (hn : ∀ g : X → Except Err ℝ, (∀ x, g x = .ok (mix fracs (ks.map (·.density x)))) →
      ∀ limits, numInt g limits = .ok (total (mixMass ks fracs) limits)) (x : X) (n : List P)
    (hpos : 0 < mix fracs (ks.map (fun k => total k.μ n / total k.μ k.d.norm))) :
    (sumImpl (ks.map (·.d)) fracs yield false numInt).evalPdf x (.range n) =
      .ok (mix fracs (ks.map (·.density x)) / mix fracs (ks.map (fun k => total k.μ n / total k.μ k.d.norm))) ∧
    ((∀ k ∈ ks, k.d.norm = n) →
      (sumImpl (ks.map (·.d)) fracs yield false numInt).evalPdf x (.range n) = .ok (mix fracs (ks.map (·.density x)))) := by
  have hh := sum_honest (numInt := numInt) hk hlen hone (yield := yield) (auto := false) hy0 (by simp) hn
  have h1 := (pdf_value hh (.inl rfl) x).2 n (by rw [total_mixMass]; exact hpos)
  rw [total_mixMass] at h1
  refine ⟨h1, fun hne => ?_⟩
  rw [h1, mix_one _ _ (fun k => total k.μ n / total k.μ k.d.norm) _ hlen, hone, div_one]
  intro k hkm
  have := (hk k hkm).norm
  rw [hne k hkm] at this ⊢
  exact div_self this.ne'

/-- C25: an automatically extended sum: `ext_pdf` is the sum of the daughters' yields times their densities. -/
theorem sum_ext_pdf_value (hk : ∀ k ∈ ks, k.Ok) (ys : List ℝ) (hys : ks.map (fun k => k.d.impl.yield) = ys.map some)
    (hY : ys.sum ≠ 0)
    (hn : ∀ g : X → Except Err ℝ,
      (∀ x, g x = .ok (mix (ys.map (· / ys.sum)) (ks.map (·.density x)))) →
      ∀ limits, numInt g limits = .ok (total (mixMass ks (ys.map (· / ys.sum))) limits)) (x : X) (n : List P)
    (hne : ∀ k ∈ ks, k.d.norm = n) :
    (sumImpl (ks.map (·.d)) (ys.map (· / ys.sum)) (some ys.sum) true numInt).evalExtPdf x (.range n) =
      .ok (mix ys (ks.map (·.density x))) := by
  have hlen0 : ys.length = ks.length := by
    have := congrArg List.length hys
    simpa using this.symm
  have hlen : (ys.map (· / ys.sum)).length = ks.length := by simpa using hlen0
  have hone : (ys.map (· / ys.sum)).sum = 1 := by
    have : ∀ (l : List ℝ) (Y : ℝ), (l.map (· / Y)).sum = l.sum / Y := by
      intro l Y
      induction l with
      | nil => simp
      | cons a l ih => simp [ih, add_div]
    rw [this, div_self hY]
  have hh := sum_honest (numInt := numInt) hk hlen hone (yield := some ys.sum) (auto := true)
    (by rintro y ⟨⟩; exact hY) (fun _ => ⟨ys.sum, rfl, by
      rw [hys, List.map_map]
      apply List.map_congr_left
      intro y _
      simp [div_mul_cancel₀ _ hY]⟩) hn
  have htot : total (mixMass ks (ys.map (· / ys.sum))) n = 1 := by
    rw [total_mixMass, mix_one _ _ _ _ hlen, hone]
    intro k hkm
    have := (hk k hkm).norm
    rw [hne k hkm] at this ⊢
    exact div_self this.ne'
  have h1 := (extended_scales hh (.inl rfl) ys.sum rfl x [] n (by rw [htot]; norm_num)).1
  rw [h1, htot, div_one]
  congr 1
  have : ∀ (l vs : List ℝ) (Y : ℝ), Y ≠ 0 → mix (l.map (· / Y)) vs * Y = mix l vs := by
    intro l
    induction l with
    | nil => intro vs Y _; simp [mix_nil_left]
    | cons a l ih =>
      intro vs Y h
      cases vs with
      | nil => simp [mix_nil_right]
      | cons v vs =>
        simp only [List.map_cons, mix_cons]
        rw [add_mul, ih vs Y h]
        field_simp
  exact this _ _ _ hY

/-- C25/C30 are violated for fractions that do not sum to one: over the common normalisation range of the daughters
`pdf` is `Σ fracᵢ·pdfᵢ(x)`, whose integral over the range is `Σ fracᵢ`, while `integrate` claims one.  Hence `pdf` is
not the unnormalised density divided by the integral. -/
theorem sum_not_normalised_violated (hk : ∀ k ∈ ks, k.Ok) {yield : Option ℝ} {auto : Bool} (x : X) (n : List P)
    (hne : ∀ k ∈ ks, k.d.norm = n) (hlen : fracs.length = ks.length) (hs : fracs.sum ≠ 0) :
    let m := sumImpl (ks.map (·.d)) fracs yield auto numInt
    m.evalPdf x (.range n) = .ok (mix fracs (ks.map (·.density x))) ∧
    m.evalPdf x .falseSpace = .ok (mix fracs (ks.map (·.density x))) ∧
    m.integral n .falseSpace = .ok fracs.sum ∧ m.integral n (.range n) = .ok 1 := by
  intro m
  have hw : weighted (·.pdf x) (ks.map (·.d)) fracs = .ok (mix fracs (ks.map (·.density x))) := by
    apply weighted_ok
    intro k hkm
    exact (pdf_value (hk k hkm).honest (hk k hkm).log x).2 _ (hk k hkm).norm
  have hi : weighted (·.integrate n) (ks.map (·.d)) fracs = .ok fracs.sum := by
    rw [← mix_one fracs ks (fun k => total k.μ n / total k.μ k.d.norm) _ hlen]
    · apply weighted_ok
      intro k hkm
      exact (integrate_value (hk k hkm).honest (hk k hkm).log n).2 _ (hk k hkm).norm
    · intro k hkm
      have := (hk k hkm).norm
      rw [hne k hkm] at this ⊢
      exact div_self this.ne'
  have ha : normAgrees (ks.map (·.d)) (.range n) = true := by
    simp only [normAgrees, List.all_map, List.all_eq_true, Function.comp_apply, decide_eq_true_eq]
    exact hne
  have hc1 : m.callIntegrate n (.range n) = .error .normNotImplemented := rfl
  have hc2 : m.callIntegrate n .pyFalse = .ok fracs.sum := by
    simp only [m, Impl.callIntegrate, callL, sumImpl, LHook.call, NHook.call, Bool.not_true, Bool.false_and,
      Bool.false_eq_true, if_false, hi, suppress]
  have hc3 : m.callIntegrate n .falseSpace = .ok fracs.sum := by
    simp only [m, Impl.callIntegrate, callL, sumImpl, LHook.call, NHook.call, Bool.not_true, Bool.false_and,
      Bool.false_eq_true, if_false, hi, suppress]
  refine ⟨?_, ?_, ?_, ?_⟩
  · simp only [m, Impl.evalPdf, Impl.callPdf, Impl.callPdfWith, callN, sumImpl, NHook.call, Bool.true_or, if_true, ha,
      hw, suppress]
  · simp only [m, Impl.evalPdf, Impl.callPdf, Impl.callPdfWith, callN, sumImpl, NHook.call, Bool.true_or, if_true,
      normAgrees, hw, suppress]
  · simp only [Impl.integral, overPieces, hc3]
  · simp only [Impl.integral, overPieces, hc1, hc2, bind, Except.bind, pure, Except.pure, div_self hs]

end eval

/-- the hypotheses of `sum_honest` and the theorems after it: two flat PDFs -/
example : ∀ k ∈ [(⟨⟨exPlain, [(0, 2)]⟩, fun _ => 3, fun p => 3 * (p.2 - p.1)⟩ : Known ℝ (ℝ × ℝ)),
    ⟨⟨exPdf, [(0, 1)]⟩, fun _ => 3, fun p => 3 * (p.2 - p.1)⟩], k.Ok := by
  intro k hk
  simp only [List.mem_cons, List.not_mem_nil, or_false] at hk
  rcases hk with rfl | rfl
  · exact ⟨exPlain_honest, .inl rfl, by norm_num [total]⟩
  · exact ⟨exPdf_honest, .inl rfl, by norm_num [total]⟩

end Zfit.Functor
