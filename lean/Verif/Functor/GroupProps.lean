import Verif.Functor.GroupModel
import Verif.Functor.SumProps

/-! C301: how a sum is grouped and ordered makes no difference. -/

namespace Zfit.Functor

open Zfit Zfit.Pdf

variable {X P : Type}

/-! ### Specification -/

mutual
/-- The number of events of a formula: the sum of the yields of its PDFs. -/
noncomputable def Formula.events : Formula X P → ℝ
  | .pdf d => d.impl.yield.getD 0
  | .sum parts _ => (eventsAll parts).sum

/-- The numbers of events of the parts. -/
noncomputable def eventsAll : List (Formula X P) → List ℝ
  | [] => []
  | p :: ps => Formula.events p :: eventsAll ps
end

/-- The fractions meant by what is given: relative yields for none, the rest to one for one less than parts. -/
noncomputable def meant (events fracs : List ℝ) : List ℝ :=
  if fracs = [] then events.map (· / events.sum)
  else if fracs.length + 1 = events.length then fracs ++ [1 - fracs.sum]
  else fracs

mutual
/-- All PDFs of a formula, each with the product of the fractions on its way. -/
noncomputable def Formula.parts : Formula X P → List (ℝ × Daughter X P)
  | .pdf d => [(1, d)]
  | .sum ps fracs => partsAll ps (meant (eventsAll ps) fracs)

/-- The same for the parts of a sum with their fractions. -/
noncomputable def partsAll : List (Formula X P) → List ℝ → List (ℝ × Daughter X P)
  | [], _ => []
  | _ :: _, [] => []
  | p :: ps, f :: fs => (Formula.parts p).map (fun q => (f * q.1, q.2)) ++ partsAll ps fs
end

mutual
/-- The PDFs of a formula. -/
def Formula.leaves : Formula X P → List (Daughter X P)
  | .pdf d => [d]
  | .sum ps _ => leavesAll ps

/-- The PDFs of several formulas. -/
def leavesAll : List (Formula X P) → List (Daughter X P)
  | [] => []
  | p :: ps => Formula.leaves p ++ leavesAll ps
end

mutual
/-- No fractions are given anywhere: the sums are made of yields. -/
def Formula.Yields : Formula X P → Prop
  | .pdf _ => True
  | .sum ps fracs => fracs = [] ∧ YieldsAll ps

/-- The same for several formulas. -/
def YieldsAll : List (Formula X P) → Prop
  | [] => True
  | p :: ps => Formula.Yields p ∧ YieldsAll ps
end

/-- `Σ w·v` over weighted PDFs. -/
noncomputable def blend (v : Daughter X P → ℝ) (l : List (ℝ × Daughter X P)) : ℝ := (l.map fun q => q.1 * v q.2).sum

/-! ### Lemmas -/

variable [DecidableEq P] {n : List P} {numInt : (X → Except Err ℝ) → List P → Except Err ℝ}

theorem eventsAll_length (ps : List (Formula X P)) : (eventsAll ps).length = ps.length := by
  induction ps with
  | nil => rfl
  | cons p ps ih => simp [eventsAll, ih]

theorem blend_append (v : Daughter X P → ℝ) (a b : List (ℝ × Daughter X P)) : blend v (a ++ b) = blend v a + blend v b := by
  simp [blend]

theorem blend_scale (v : Daughter X P → ℝ) (f : ℝ) (a : List (ℝ × Daughter X P)) :
    blend v (a.map fun q => (f * q.1, q.2)) = blend v a * f := by
  induction a with
  | nil => simp [blend]
  | cons q a ih =>
    simp only [blend, List.map_cons, List.sum_cons] at ih ⊢
    rw [ih]
    ring

/-- what `SumPDF(ds, fracs)` is -/
theorem makeSum_ok {ds : List (Daughter X P)} {fracs : List ℝ} {D : Daughter X P} (h : makeSum n numInt ds fracs = .ok D) :
    D.norm = n ∧
      ((fracs = [] ∧ ∃ ys : List ℝ, ds.map (·.impl.yield) = ys.map some ∧
          D.impl = sumImpl ds (ys.map (· / ys.sum)) (some ys.sum) true numInt) ∨
       (fracs ≠ [] ∧ fracs.length + 1 = ds.length ∧ D.impl = sumImpl ds (fracs ++ [1 - fracs.sum]) none false numInt) ∨
       (fracs ≠ [] ∧ fracs.length = ds.length ∧ D.impl = sumImpl ds fracs none false numInt)) := by
  unfold makeSum at h
  have hcs : ∃ cs : List (Comp Unit), cs = ds.map fun d => ⟨[], d.impl.yield.map fun y _ => y⟩ := ⟨_, rfl⟩
  obtain ⟨cs, hcs⟩ := hcs
  rw [← hcs] at h
  have hobs : ObsAgree none cs := by
    intro q hq o
    rw [hcs] at hq ⊢
    obtain ⟨d, -, rfl⟩ := List.mem_map.1 hq
    cases ds with
    | nil => simp
    | cons d' ds => simp
  cases hm : mkSum (S := Unit) cs (fracs.map fun f _ => f) none .none with
  | error e => rw [hm] at h; cases h
  | ok s =>
    rw [hm] at h
    simp only [Except.ok.injEq] at h
    subst h
    refine ⟨rfl, ?_⟩
    have hlen : cs.length = ds.length := by rw [hcs]; simp
    have h2 : 2 ≤ cs.length := by
      by_contra hlt
      have := (sum_rejected_iff (pdfs := cs) (fracs := fracs.map fun f (_ : Unit) => f) (obs := none) (ext := .none)
        .valueError).2 (.inl ⟨by omega, rfl⟩)
      rw [hm] at this
      cases this
    have hmk := hm
    unfold mkSum at hmk
    rw [preprocess_eq h2 hobs] at hmk
    cases fracs with
    | nil =>
      left
      refine ⟨rfl, ?_⟩
      cases hy : allYields cs with
      | none => rw [hy] at hmk; cases hmk
      | some ys =>
        rw [hy] at hmk
        simp only [List.map_nil, bind, Except.bind, pure, Except.pure, Except.ok.injEq, sumYield] at hmk
        subst hmk
        have hys := allYields_some.1 hy
        refine ⟨ys.map (· ()), ?_, ?_⟩
        · rw [hcs] at hys
          clear * - hys
          induction ds generalizing ys with
          | nil => cases ys with
            | nil => rfl
            | cons y ys => simp at hys
          | cons d ds ih =>
            cases ys with
            | nil => simp at hys
            | cons y ys =>
              simp only [List.map_cons, List.cons.injEq] at hys ⊢
              refine ⟨?_, ih ys hys.2⟩
              have := hys.1
              cases hd : d.impl.yield with
              | none => rw [hd] at this; cases this
              | some z =>
                rw [hd] at this
                simp only [Option.map_some, Option.some.injEq] at this
                rw [← this]
        · simp [sumOf, Function.comp_def]
    | cons f fs =>
      right
      simp only [List.map_cons, bind, Except.bind, pure, Except.pure, cleanFracs] at hmk
      by_cases ha : (f :: fs).length + 1 = ds.length
      · left
        refine ⟨by simp, ha, ?_⟩
        rw [if_pos (by rw [hlen]; simpa using ha)] at hmk
        simp only [Except.map, Except.ok.injEq, sumYield] at hmk
        subst hmk
        simp [remaining, Function.comp_def]
      · right
        rw [if_neg (by rw [hlen]; simpa using ha)] at hmk
        by_cases hb : (f :: fs).length = ds.length
        · refine ⟨by simp, hb, ?_⟩
          rw [if_pos (by rw [hlen]; simpa using hb)] at hmk
          simp only [Except.map, Except.ok.injEq, sumYield] at hmk
          subst hmk
          simp [Function.comp_def]
        · rw [if_neg (by rw [hlen]; simpa using hb)] at hmk
          cases hmk

/-- `pdf` of a sum over the common norm -/
theorem sum_pdf_common {ds : List (Daughter X P)} {fracs : List ℝ} {yield : Option ℝ} {auto : Bool} (hn : ∀ d ∈ ds, d.norm = n) (x : X)
    {r : ℝ} (hw : weighted (·.pdf x) ds fracs = .ok r) :
    (⟨sumImpl ds fracs yield auto numInt, n⟩ : Daughter X P).pdf x = .ok r := by
  have ha : normAgrees ds (.range n) = true := by
    simp only [normAgrees, List.all_eq_true, decide_eq_true_eq]
    exact hn
  show (sumImpl ds fracs yield auto numInt).evalPdf x (.range n) = .ok r
  simp only [Impl.evalPdf, Impl.callPdf, Impl.callPdfWith, callN, sumImpl, NHook.call, Bool.true_or, if_true, ha, hw, suppress]

/-- `ext_pdf` of an automatically extended sum over the common norm -/
theorem sum_ext_common {ds : List (Daughter X P)} {fracs : List ℝ} {y : ℝ} (hn : ∀ d ∈ ds, d.norm = n) (x : X)
    {r : ℝ} (hw : plainSum (·.extPdf x) ds = .ok r) :
    (⟨sumImpl ds fracs (some y) true numInt, n⟩ : Daughter X P).extPdf x = .ok r := by
  have ha : normAgrees ds (.range n) = true := by
    simp only [normAgrees, List.all_eq_true, decide_eq_true_eq]
    exact hn
  show (sumImpl ds fracs (some y) true numInt).evalExtPdf x (.range n) = .ok r
  simp [Impl.evalExtPdf, Impl.autoExtPdf, callN, sumImpl, NHook.call, ha, hw, suppress]

/-- what is shown of the PDF of a formula by induction -/
def Good (n : List P) (x : X) (v : Daughter X P → ℝ) (F : Formula X P) (D : Daughter X P) : Prop :=
  D.norm = n ∧ D.pdf x = .ok (blend v F.parts) ∧ ∀ y, D.impl.yield = some y → F.events = y

theorem weighted_good {x : X} {v : Daughter X P → ℝ} {ps : List (Formula X P)} {ds : List (Daughter X P)}
    (h : List.Forall₂ (Good n x v) ps ds) (fs : List ℝ) :
    weighted (·.pdf x) ds fs = .ok (blend v (partsAll ps fs)) := by
  induction h generalizing fs with
  | nil => simp [weighted, partsAll, blend]
  | cons hpd _ ih =>
    cases fs with
    | nil => simp [weighted, partsAll, blend]
    | cons f fs =>
      simp only [weighted, partsAll]
      rw [hpd.2.1, ih fs, blend_append, blend_scale]
      rfl

theorem events_good {x : X} {v : Daughter X P → ℝ} {ps : List (Formula X P)} {ds : List (Daughter X P)}
    (h : List.Forall₂ (Good n x v) ps ds) (ys : List ℝ) (hy : ds.map (·.impl.yield) = ys.map some) : eventsAll ps = ys := by
  induction h generalizing ys with
  | nil => cases ys with
    | nil => rfl
    | cons y ys => simp at hy
  | cons hpd _ ih =>
    cases ys with
    | nil => simp at hy
    | cons y ys =>
      simp only [List.map_cons, List.cons.injEq] at hy
      simp only [eventsAll, List.cons.injEq]
      exact ⟨hpd.2.2 y hy.1, ih ys hy.2⟩

theorem good_norm {x : X} {v : Daughter X P → ℝ} {ps : List (Formula X P)} {ds : List (Daughter X P)}
    (h : List.Forall₂ (Good n x v) ps ds) : ∀ d ∈ ds, d.norm = n := by
  induction h with
  | nil => simp
  | cons hpd _ ih =>
    intro d hd
    rcases List.mem_cons.1 hd with rfl | hd
    · exact hpd.1
    · exact ih d hd

theorem good_length {x : X} {v : Daughter X P → ℝ} {ps : List (Formula X P)} {ds : List (Daughter X P)}
    (h : List.Forall₂ (Good n x v) ps ds) : (eventsAll ps).length = ds.length := by
  rw [eventsAll_length, h.length_eq]

mutual
theorem build_good (x : X) (v : Daughter X P → ℝ) :
    ∀ (F : Formula X P) (D : Daughter X P), F.build n numInt = .ok D →
      (∀ d ∈ F.leaves, d.norm = n ∧ d.pdf x = .ok (v d)) → Good n x v F D
  | .pdf d, D, h, hl => by
    simp only [Formula.build, Except.ok.injEq] at h
    subst h
    have := hl d (by simp [Formula.leaves])
    refine ⟨this.1, ?_, ?_⟩
    · rw [this.2]
      simp [Formula.parts, blend]
    · intro y hy
      simp [Formula.events, hy]
  | .sum ps fracs, D, h, hl => by
    simp only [Formula.build] at h
    cases hb : buildAll n numInt ps with
    | error e => rw [hb] at h; cases h
    | ok ds =>
      rw [hb] at h
      simp only at h
      have hg := buildAll_good x v ps ds hb (fun d hd => hl d (by simpa [Formula.leaves] using hd))
      obtain ⟨Dimpl, Dn⟩ := D
      obtain ⟨hn, hcase⟩ := makeSum_ok h
      simp only at hn hcase
      subst hn
      rcases hcase with ⟨hf, ys, hys, hD⟩ | ⟨hf, hlen, hD⟩ | ⟨hf, hlen, hD⟩
      · subst hD
        have hev := events_good hg ys hys
        refine ⟨rfl, ?_, ?_⟩
        · apply sum_pdf_common (good_norm hg)
          rw [weighted_good hg]
          simp [Formula.parts, meant, hf, hev]
        · intro y hy
          simp only [sumImpl, Option.some.injEq] at hy
          simp [Formula.events, hev, hy]
      · subst hD
        refine ⟨rfl, ?_, fun y hy => by cases hy⟩
        apply sum_pdf_common (good_norm hg)
        rw [weighted_good hg]
        simp [Formula.parts, meant, hf, good_length hg, hlen]
      · subst hD
        refine ⟨rfl, ?_, fun y hy => by cases hy⟩
        apply sum_pdf_common (good_norm hg)
        rw [weighted_good hg]
        simp [Formula.parts, meant, hf, good_length hg, hlen]

theorem buildAll_good (x : X) (v : Daughter X P → ℝ) :
    ∀ (ps : List (Formula X P)) (ds : List (Daughter X P)), buildAll n numInt ps = .ok ds →
      (∀ d ∈ leavesAll ps, d.norm = n ∧ d.pdf x = .ok (v d)) → List.Forall₂ (Good n x v) ps ds
  | [], ds, h, _ => by
    simp only [buildAll, Except.ok.injEq] at h
    subst h
    exact .nil
  | p :: ps, ds, h, hl => by
    simp only [buildAll] at h
    cases hp : p.build n numInt with
    | error e => rw [hp] at h; cases h
    | ok d =>
      cases hb : buildAll n numInt ps with
      | error e => rw [hp, hb] at h; cases h
      | ok ds' =>
        rw [hp, hb] at h
        simp only [Except.ok.injEq] at h
        subst h
        exact .cons (build_good x v p d hp (fun e he => hl e (by simp [leavesAll, he])))
          (buildAll_good x v ps ds' hb (fun e he => hl e (by simp [leavesAll, he])))
end

/-! ### C301 -/

/-- C301: the density of any formula of sums is the sum of the densities of all its PDFs, each times the product of the fractions on its
way; so two formulas with the same PDFs and the same overall fractions, in any grouping and order, have the same density at every point at
which the PDFs have one.  (Where yields add up to zero, the fractions are not numbers in the code.) -/
theorem sum_grouping {F G : Formula X P} {D E : Daughter X P} (hF : F.build n numInt = .ok D) (hG : G.build n numInt = .ok E)
    (hperm : F.parts.Perm G.parts) (x : X) (v : Daughter X P → ℝ) (hlF : ∀ d ∈ F.leaves, d.norm = n ∧ d.pdf x = .ok (v d))
    (hlG : ∀ d ∈ G.leaves, d.norm = n ∧ d.pdf x = .ok (v d)) :
    D.pdf x = .ok ((F.parts.map fun q => q.1 * v q.2).sum) ∧ D.pdf x = E.pdf x := by
  have h1 := (build_good x v F D hF hlF).2.1
  have h2 := (build_good x v G E hG hlG).2.1
  refine ⟨h1, ?_⟩
  rw [h1, h2]
  congr 1
  exact (hperm.map _).sum_eq

/-- what is shown of the PDF of a formula of yields by induction -/
def Extended (n : List P) (x : X) (e : Daughter X P → ℝ) (F : Formula X P) (D : Daughter X P) : Prop :=
  D.norm = n ∧ D.extPdf x = .ok ((F.leaves.map e).sum) ∧ D.impl.yield = some F.events

theorem plainSum_extended {x : X} {e : Daughter X P → ℝ} {ps : List (Formula X P)} {ds : List (Daughter X P)}
    (h : List.Forall₂ (Extended n x e) ps ds) : plainSum (·.extPdf x) ds = .ok ((leavesAll ps).map e).sum := by
  induction h with
  | nil => simp [plainSum, leavesAll]
  | cons hpd _ ih =>
    simp only [plainSum, leavesAll]
    rw [hpd.2.1, ih]
    simp [bind, Except.bind, pure, Except.pure]

theorem yields_extended {x : X} {e : Daughter X P → ℝ} {ps : List (Formula X P)} {ds : List (Daughter X P)}
    (h : List.Forall₂ (Extended n x e) ps ds) : ds.map (·.impl.yield) = (eventsAll ps).map some := by
  induction h with
  | nil => rfl
  | cons hpd _ ih => simp [eventsAll, hpd.2.2, ih]

theorem extended_norm {x : X} {e : Daughter X P → ℝ} {ps : List (Formula X P)} {ds : List (Daughter X P)}
    (h : List.Forall₂ (Extended n x e) ps ds) : ∀ d ∈ ds, d.norm = n := by
  induction h with
  | nil => simp
  | cons hpd _ ih =>
    intro d hd
    rcases List.mem_cons.1 hd with rfl | hd
    · exact hpd.1
    · exact ih d hd

mutual
theorem build_extended (x : X) (e : Daughter X P → ℝ) :
    ∀ (F : Formula X P) (D : Daughter X P), F.build n numInt = .ok D → F.Yields →
      (∀ d ∈ F.leaves, d.norm = n ∧ d.extPdf x = .ok (e d)) → Extended n x e F D
  | .pdf d, D, h, _, hl => by
    simp only [Formula.build, Except.ok.injEq] at h
    subst h
    have := hl d (by simp [Formula.leaves])
    refine ⟨this.1, by simp [this.2, Formula.leaves], ?_⟩
    cases hy : d.impl.yield with
    | none =>
      have h2 := this.2
      simp [Daughter.extPdf, Impl.evalExtPdf, hy] at h2
    | some y => simp [Formula.events, hy]
  | .sum ps fracs, D, h, hY, hl => by
    simp only [Formula.build] at h
    simp only [Formula.Yields] at hY
    cases hb : buildAll n numInt ps with
    | error e => rw [hb] at h; cases h
    | ok ds =>
      rw [hb] at h
      simp only at h
      have hg := buildAll_extended x e ps ds hb hY.2 (fun d hd => hl d (by simpa [Formula.leaves] using hd))
      obtain ⟨Dimpl, Dn⟩ := D
      obtain ⟨hn, hcase⟩ := makeSum_ok h
      simp only at hn hcase
      subst hn
      rcases hcase with ⟨hf, ys, hys, hD⟩ | ⟨hf, hlen, hD⟩ | ⟨hf, hlen, hD⟩
      · subst hD
        rw [yields_extended hg] at hys
        have hev : eventsAll ps = ys := List.map_injective_iff.2 (Option.some_injective ℝ) hys
        refine ⟨rfl, ?_, by simp [sumImpl, Formula.events, hev]⟩
        apply sum_ext_common (extended_norm hg)
        rw [plainSum_extended hg]
        simp [Formula.leaves]
      · exact absurd hY.1 hf
      · exact absurd hY.1 hf

theorem buildAll_extended (x : X) (e : Daughter X P → ℝ) :
    ∀ (ps : List (Formula X P)) (ds : List (Daughter X P)), buildAll n numInt ps = .ok ds → YieldsAll ps →
      (∀ d ∈ leavesAll ps, d.norm = n ∧ d.extPdf x = .ok (e d)) → List.Forall₂ (Extended n x e) ps ds
  | [], ds, h, _, _ => by
    simp only [buildAll, Except.ok.injEq] at h
    subst h
    exact .nil
  | p :: ps, ds, h, hY, hl => by
    simp only [buildAll] at h
    simp only [YieldsAll] at hY
    cases hp : p.build n numInt with
    | error e => rw [hp] at h; cases h
    | ok d =>
      cases hb : buildAll n numInt ps with
      | error e => rw [hp, hb] at h; cases h
      | ok ds' =>
        rw [hp, hb] at h
        simp only [Except.ok.injEq] at h
        subst h
        exact .cons (build_extended x e p d hp hY.1 (fun e he => hl e (by simp [leavesAll, he])))
          (buildAll_extended x e ps ds' hb hY.2 (fun e he => hl e (by simp [leavesAll, he])))
end

mutual
theorem events_leaves : ∀ F : Formula X P, F.events = (F.leaves.map fun d => d.impl.yield.getD 0).sum
  | .pdf d => by simp [Formula.events, Formula.leaves]
  | .sum ps _ => by simp [Formula.events, Formula.leaves, eventsAll_leaves ps]

theorem eventsAll_leaves : ∀ ps : List (Formula X P), (eventsAll ps).sum = ((leavesAll ps).map fun d => d.impl.yield.getD 0).sum
  | [] => by simp [eventsAll, leavesAll]
  | p :: ps => by simp [eventsAll, leavesAll, events_leaves p, eventsAll_leaves ps]
end

/-- C301: sums of extended PDFs without fractions: the yield of any grouping and order is the sum of the yields of all the PDFs, and its
`ext_pdf` the sum of theirs. -/
theorem sum_grouping_extended {F G : Formula X P} {D E : Daughter X P} (hF : F.build n numInt = .ok D) (hG : G.build n numInt = .ok E)
    (hYF : F.Yields) (hYG : G.Yields) (hperm : F.leaves.Perm G.leaves) (x : X) (e : Daughter X P → ℝ)
    (hl : ∀ d ∈ F.leaves, d.norm = n ∧ d.extPdf x = .ok (e d)) :
    D.extPdf x = .ok ((F.leaves.map e).sum) ∧ D.extPdf x = E.extPdf x ∧
    D.impl.yield = some ((F.leaves.map fun d => d.impl.yield.getD 0).sum) ∧ D.impl.yield = E.impl.yield := by
  have h1 := build_extended x e F D hF hYF hl
  have h2 := build_extended x e G E hG hYG (fun d hd => hl d (hperm.mem_iff.2 hd))
  refine ⟨h1.2.1, ?_, ?_, ?_⟩
  · rw [h1.2.1, h2.2.1]
    congr 1
    exact (hperm.map _).sum_eq
  · rw [h1.2.2, events_leaves]
  · rw [h1.2.2, h2.2.2, events_leaves, events_leaves]
    congr 1
    exact (hperm.map _).sum_eq

mutual
theorem leaves_nonempty : ∀ (F : Formula X P) (D : Daughter X P), F.build n numInt = .ok D → F.leaves ≠ []
  | .pdf d, _, _ => by simp [Formula.leaves]
  | .sum [] fracs, D, h => by
    simp only [Formula.build, buildAll] at h
    obtain ⟨-, ⟨-, ys, hys, -⟩ | ⟨h1, h2, -⟩ | ⟨h1, h2, -⟩⟩ := makeSum_ok h
    · exfalso
      have : mkSum (S := Unit) [] (fracs.map fun f _ => f) none .none = .error .valueError := rfl
      simp only [makeSum, List.map_nil, this] at h
      cases h
    · simp at h2
    · exact absurd (List.length_eq_zero_iff.1 h2) h1
  | .sum (p :: ps) fracs, D, h => by
    simp only [Formula.build, buildAll] at h
    cases hp : p.build n numInt with
    | error e => rw [hp] at h; cases h
    | ok d =>
      have := leaves_nonempty p d hp
      simp [Formula.leaves, leavesAll, this]
end

/-- the yields of all the PDFs are positive -/
def PositiveYields (l : List (Daughter X P)) : Prop := ∀ d ∈ l, ∃ y, d.impl.yield = some y ∧ 0 < y

theorem positive_sum {l : List (Daughter X P)} (h : PositiveYields l) (hne : l ≠ []) : 0 < (l.map fun d => d.impl.yield.getD 0).sum := by
  apply List.sum_pos
  · intro a ha
    obtain ⟨d, hd, rfl⟩ := List.mem_map.1 ha
    obtain ⟨y, hy, hpos⟩ := h d hd
    simpa [hy] using hpos
  · simpa using hne

mutual
theorem parts_yields : ∀ (F : Formula X P) (D : Daughter X P), F.build n numInt = .ok D → F.Yields → PositiveYields F.leaves →
    F.parts = F.leaves.map fun d => (d.impl.yield.getD 0 / F.events, d)
  | .pdf d, D, h, _, hp => by
    obtain ⟨y, hy, hpos⟩ := hp d (by simp [Formula.leaves])
    simp [Formula.parts, Formula.leaves, Formula.events, hy, hpos.ne']
  | .sum ps fracs, D, h, hY, hp => by
    simp only [Formula.build] at h
    simp only [Formula.Yields] at hY
    cases hb : buildAll n numInt ps with
    | error e => rw [hb] at h; cases h
    | ok ds =>
      simp only [Formula.parts, Formula.leaves, Formula.events, meant, hY.1, if_true]
      exact partsAll_yields ps ds hb hY.2 (by simpa [Formula.leaves] using hp) _

theorem partsAll_yields : ∀ (ps : List (Formula X P)) (ds : List (Daughter X P)), buildAll n numInt ps = .ok ds → YieldsAll ps →
    PositiveYields (leavesAll ps) → ∀ Y : ℝ,
    partsAll ps ((eventsAll ps).map (· / Y)) = (leavesAll ps).map fun d => (d.impl.yield.getD 0 / Y, d)
  | [], ds, h, _, _, Y => by simp [partsAll, leavesAll]
  | p :: ps, ds, h, hY, hpos, Y => by
    simp only [buildAll] at h
    simp only [YieldsAll] at hY
    cases hp : p.build n numInt with
    | error e => rw [hp] at h; cases h
    | ok d =>
      cases hb : buildAll n numInt ps with
      | error e => rw [hp, hb] at h; cases h
      | ok ds' =>
        have hp1 : PositiveYields p.leaves := fun d hd => hpos d (by simp [leavesAll, hd])
        have hp2 : PositiveYields (leavesAll ps) := fun d hd => hpos d (by simp [leavesAll, hd])
        have hev : 0 < p.events := by
          rw [events_leaves]
          exact positive_sum hp1 (leaves_nonempty p d hp)
        simp only [eventsAll, List.map_cons, partsAll, leavesAll, List.map_append]
        rw [partsAll_yields ps ds' hb hY.2 hp2 Y, parts_yields p d hp hY.1 hp1, List.map_map]
        congr 1
        apply List.map_congr_left
        intro q _
        simp only [Function.comp_apply, Prod.mk.injEq, and_true]
        field_simp
end

/-- C301: the density of sums of extended PDFs with positive yields does not depend on the grouping and order either. -/
theorem sum_grouping_yields {F G : Formula X P} {D E : Daughter X P} (hF : F.build n numInt = .ok D) (hG : G.build n numInt = .ok E)
    (hYF : F.Yields) (hYG : G.Yields) (hperm : F.leaves.Perm G.leaves) (hpos : ∀ d ∈ F.leaves, ∃ y, d.impl.yield = some y ∧ 0 < y)
    (x : X) (v : Daughter X P → ℝ) (hl : ∀ d ∈ F.leaves, d.norm = n ∧ d.pdf x = .ok (v d)) :
    D.pdf x = E.pdf x := by
  have hposG : PositiveYields G.leaves := fun d hd => hpos d (hperm.mem_iff.2 hd)
  refine (sum_grouping hF hG ?_ x v hl (fun d hd => hl d (hperm.mem_iff.2 hd))).2
  rw [parts_yields F D hF hYF hpos, parts_yields G E hG hYG hposG, events_leaves F, events_leaves G, (hperm.map _).sum_eq]
  exact hperm.map _

/-- the hypotheses of `sum_grouping`: `(a + b) + c` with fractions a half each, and `a + b + c` with fractions a quarter, a quarter and the
rest, for PDFs of one norm -/
example (a b c : Daughter X P) :
    (∃ D, (Formula.sum [.sum [.pdf a, .pdf b] [1 / 2], .pdf c] [1 / 2]).build n numInt = .ok D) ∧
    (∃ D, (Formula.sum [.pdf a, .pdf b, .pdf c] [1 / 4, 1 / 4]).build n numInt = .ok D) ∧
    (Formula.sum [.sum [.pdf a, .pdf b] [1 / 2], .pdf c] [1 / 2]).parts.Perm
      (Formula.sum [.pdf a, .pdf b, .pdf c] [1 / 4, 1 / 4]).parts := by
  refine ⟨⟨_, rfl⟩, ⟨_, rfl⟩, ?_⟩
  have h : (Formula.sum [.sum [.pdf a, .pdf b] [1 / 2], .pdf c] [1 / 2]).parts = [(1 / 4, a), (1 / 4, b), (1 / 2, c)] := by
    norm_num [Formula.parts, partsAll, meant, eventsAll]
  have h' : (Formula.sum [.pdf a, .pdf b, .pdf c] [1 / 4, 1 / 4]).parts = [(1 / 4, a), (1 / 4, b), (1 / 2, c)] := by
    norm_num [Formula.parts, partsAll, meant, eventsAll]
    rw [if_neg (by simp)]
    simp [partsAll, Formula.parts]
  rw [h, h']

/-- the hypotheses on the PDFs: a flat PDF with a yield -/
example : (⟨exPlain, [(0, 2)]⟩ : Daughter ℝ (ℝ × ℝ)).pdf 1 = .ok (1 / 2) ∧
    (⟨exPlain, [(0, 2)]⟩ : Daughter ℝ (ℝ × ℝ)).extPdf 1 = .ok (5 / 2) := by
  constructor
  · show exPlain.evalPdf 1 (.range [(0, 2)]) = _
    rw [(pdf_value exPlain_honest (.inl rfl) 1).2 [(0, 2)] (by norm_num [total])]
    norm_num [total]
  · show exPlain.evalExtPdf 1 (.range [(0, 2)]) = _
    rw [(extended_scales exPlain_honest (.inl rfl) 5 rfl 1 [] [(0, 2)] (by norm_num [total])).1]
    norm_num [total]

/-- the hypotheses of `sum_grouping_extended` and `sum_grouping_yields`: three extended PDFs in two groupings and orders -/
example (i j k : Impl X P) (ya yb yc : ℝ) :
    let a : Daughter X P := ⟨{ i with yield := some ya }, n⟩
    let b : Daughter X P := ⟨{ j with yield := some yb }, n⟩
    let c : Daughter X P := ⟨{ k with yield := some yc }, n⟩
    (∃ D, (Formula.sum [.sum [.pdf a, .pdf b] [], .pdf c] []).build n numInt = .ok D) ∧
    (∃ D, (Formula.sum [.pdf c, .pdf a, .pdf b] []).build n numInt = .ok D) ∧
    (Formula.sum [.sum [.pdf a, .pdf b] [], .pdf c] []).Yields ∧
    (Formula.sum [.sum [.pdf a, .pdf b] [], .pdf c] []).leaves.Perm (Formula.sum [.pdf c, .pdf a, .pdf b] []).leaves := by
  refine ⟨⟨_, rfl⟩, ⟨_, rfl⟩, by simp [Formula.Yields, YieldsAll], ?_⟩
  simp only [Formula.leaves, leavesAll, List.nil_append, List.append_nil, List.cons_append]
  exact ((List.Perm.swap _ _ _).cons _).trans (List.Perm.swap _ _ _)

end Zfit.Functor
