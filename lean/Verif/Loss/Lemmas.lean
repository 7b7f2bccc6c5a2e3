import Verif.Loss.Spec
import Verif.Common.Except
import Mathlib.Tactic.Ring
import Mathlib.Tactic.Linarith
import Mathlib.Tactic.LinearCombination

/-! # Auxiliary facts about the losses -/

namespace Zfit.Loss

open Zfit

variable {Θ X : Type}

theorem mapM_append_ok {α β : Type} (f : α → Except Err β) (a b : List α) :
    (a ++ b).mapM f = (do let x ← a.mapM f; let y ← b.mapM f; pure (x ++ y)) := by
  simp [List.mapM_append]

theorem sumTerms_append (a b : List (Except Err ℝ)) :
    sumTerms (a ++ b) = (do let x ← sumTerms a; let y ← sumTerms b; pure (x + y)) := by
  unfold sumTerms
  rw [List.mapM_append]
  rcases ha : a.mapM id with e | x
  · rfl
  · rcases hb : b.mapM id with e | y
    · rfl
    · simp only [except_bind_ok, except_pure, List.sum_append]

theorem sumTerms_cons (a : Except Err ℝ) (b : List (Except Err ℝ)) :
    sumTerms (a :: b) = (do let x ← a; let y ← sumTerms b; pure (x + y)) := by
  unfold sumTerms
  rw [List.mapM_cons]
  rcases a with e | x
  · rfl
  · rcases hb : b.mapM id with e | y
    · simp only [id, except_bind_ok, hb]; rfl
    · simp only [id, except_bind_ok, except_pure, hb, List.sum_cons]

theorem sumTerms_nil : sumTerms [] = .ok 0 := rfl

/-- Terms that are shifted by constants give sums shifted by a constant. -/
theorem sumTerms_shift {P : Type} (f g : P → Θ → Except Err ℝ) (l : List P)
    (h : ∀ p ∈ l, ∃ c : ℝ, ∀ θ, f p θ = (g p θ).map (· + c)) :
    ∃ c : ℝ, ∀ θ, sumTerms (l.map (fun p => f p θ)) = (sumTerms (l.map (fun p => g p θ))).map (· + c) := by
  induction l with
  | nil => exact ⟨0, fun θ => by simp [sumTerms_nil, Except.map]⟩
  | cons p ps ih =>
    obtain ⟨c, hc⟩ := ih (fun q hq => h q (List.mem_cons_of_mem _ hq))
    obtain ⟨d, hd⟩ := h p List.mem_cons_self
    refine ⟨d + c, fun θ => ?_⟩
    simp only [List.map_cons, sumTerms_cons, hd θ, hc θ]
    rcases g p θ with e | x
    · rfl
    · rcases sumTerms (ps.map (fun p => g p θ)) with e | y
      · rfl
      · simp only [Except.map, except_bind_ok, except_pure, Except.ok.injEq]
        ring

theorem sum_zipWith_shift (f g : ℝ → ℝ → ℝ) (b : List ℝ) (h : ∀ y ∈ b, ∃ c : ℝ, ∀ x, f x y = g x y + c) :
    ∃ c : ℝ, ∀ a : List ℝ, a.length = b.length → (List.zipWith f a b).sum = (List.zipWith g a b).sum + c := by
  induction b with
  | nil => exact ⟨0, fun a _ => by simp⟩
  | cons y ys ih =>
    obtain ⟨c, hc⟩ := ih (fun z hz => h z (List.mem_cons_of_mem _ hz))
    obtain ⟨d, hd⟩ := h y List.mem_cons_self
    refine ⟨d + c, fun a ha => ?_⟩
    rcases a with _ | ⟨x, xs⟩
    · simp at ha
    · simp only [List.zipWith_cons_cons, List.sum_cons, hd x, hc xs (by simpa using ha)]
      ring

theorem sum_map_add_const {α : Type} (f : α → ℝ) (c : ℝ) (l : List α) :
    (l.map (fun a => f a + c)).sum = (l.map f).sum + l.length * c := by
  induction l with
  | nil => simp
  | cons a as ih => simp only [List.map_cons, List.sum_cons, ih, List.length_cons]; push_cast; ring

theorem sum_map_sub_const (c : ℝ) (l : List ℝ) : (l.map (· - c)).sum = l.sum - l.length * c := by
  induction l with
  | nil => simp
  | cons a as ih => simp only [List.map_cons, List.sum_cons, ih, List.length_cons]; push_cast; ring

theorem nllTerm_shift (m : Mod Θ X) (d : Dat X) (r : Option (Range X)) (o : ℝ) :
    ∃ c : ℝ, ∀ θ, nllTerm m d r θ (some o) = nllTerm m d r θ none + c := by
  unfold nllTerm nllCalc
  rcases hw : (d.cut r).2 with _ | w
  · refine ⟨(d.cut r).1.length * o, fun θ => ?_⟩
    simp only [hw, sum_map_sub_const, List.length_map]
    change -(_) = -(_) + _
    ring
  · refine ⟨((min (d.cut r).1.length w.length : ℕ) : ℝ) * o, fun θ => ?_⟩
    simp only [hw, sum_map_sub_const, List.length_zipWith, List.length_map]
    change -(_) = -(_) + _
    ring

theorem constraintSum_shift (k : Kind) (cs : List (Constr Θ)) (o : ℝ) :
    ∃ c : ℝ, ∀ θ, constraintSum k cs θ (some o) = constraintSum k cs θ none + c := by
  unfold constraintSum
  induction cs with
  | nil => exact ⟨0, fun θ => by simp⟩
  | cons q qs ih =>
    obtain ⟨c, hc⟩ := ih
    cases k <;> simp only [List.map_cons, List.sum_cons, Option.getD_some, Option.getD_none] at hc ⊢
    · exact ⟨c, fun θ => by linear_combination hc θ⟩
    · exact ⟨c, fun θ => by linear_combination hc θ⟩
    · exact ⟨c - o * q.nparams, fun θ => by linear_combination hc θ⟩
    · exact ⟨c - o * q.nparams, fun θ => by linear_combination hc θ⟩
    · exact ⟨c - o, fun θ => by linear_combination hc θ⟩
    · exact ⟨c - o, fun θ => by linear_combination hc θ⟩

theorem extTerm_shift (m : Mod Θ X) (d : Dat X) (o : ℝ) :
    ∃ c : ℝ, ∀ θ, extTerm m d θ (some o) = (extTerm m d θ none).map (· + c) := by
  unfold extTerm
  rcases m.yield with _ | y
  · exact ⟨0, fun θ => rfl⟩
  · refine ⟨o - stirling d.samplesize, fun θ => ?_⟩
    simp [Except.map, addOffset, logPoissonLoss]

theorem expected_length {m : Mod Θ X} {d : Dat X} (h : CountsMatch m d) (ext : Bool) (θ : Θ) (p : List ℝ)
    (hp : expected ext m d θ = .ok p) : p.length = d.values.length := by
  unfold expected at hp
  cases ext
  · simp only [Bool.false_eq_true, if_false, Except.ok.injEq] at hp
    rw [← hp, List.length_map]; exact h.1 θ
  · simp only [if_true] at hp
    rcases hc : m.counts with _ | c
    · simp [hc] at hp
    · simp only [hc, Except.ok.injEq] at hp
      rw [← hp]; exact h.2.1 c hc θ

theorem poissonTerm_shift (ext : Bool) (m : Mod Θ X) (d : Dat X) (h : CountsMatch m d) (o : ℝ) :
    ∃ c : ℝ, ∀ θ, poissonTerm ext m d θ (some o) = (poissonTerm ext m d θ none).map (· + c) := by
  obtain ⟨c, hc⟩ := sum_zipWith_shift (fun p v => poissonBin p v (some o)) (fun p v => poissonBin p v none) d.values
    (fun y _ => ⟨o - stirling (y + eps), fun x => by simp [poissonBin, addOffset, logPoissonLoss]⟩)
  refine ⟨c, fun θ => ?_⟩
  unfold poissonTerm
  rcases hp : expected ext m d θ with e | p
  · rfl
  · simp only [except_bind_ok, except_pure, Except.map, hc p (expected_length h ext θ p hp)]

theorem chi2Term_shift (ext : Bool) (er : Errors) (m : Mod Θ X) (d : Dat X) (h : CountsMatch m d) (o : ℝ) :
    ∃ c : ℝ, ∀ θ, chi2Term ext er m d θ (some o) = (chi2Term ext er m d θ none).map (· + c) := by
  refine ⟨d.values.length * o, fun θ => ?_⟩
  unfold chi2Term
  rcases hp : expected ext m d θ with e | p
  · rfl
  · simp only [except_bind_ok]
    rcases hv : variancesOf er p d with e | v
    · rfl
    · have hl := expected_length h ext θ p hp
      have hvl : v.length = d.values.length := by
        unfold variancesOf at hv
        cases er
        · rcases hd : d.variances with _ | w
          · simp [hd] at hv
          · simp only [hd, Except.ok.injEq] at hv
            rw [← hv]; exact h.2.2 w hd
        · simp only [Except.ok.injEq] at hv
          rw [← hv, List.length_map, hl]
        · simp at hv
      simp only [except_bind_ok, except_pure, Except.map, chi2Bin, addOffset, Except.ok.injEq]
      rw [sum_map_add_const]
      simp [hl, hvl]

theorem sum_shift {P : Type} (f g : P → Θ → ℝ) (l : List P) (h : ∀ p ∈ l, ∃ c : ℝ, ∀ θ, f p θ = g p θ + c) :
    ∃ c : ℝ, ∀ θ, (l.map (fun p => f p θ)).sum = (l.map (fun p => g p θ)).sum + c := by
  induction l with
  | nil => exact ⟨0, fun θ => by simp⟩
  | cons p ps ih =>
    obtain ⟨c, hc⟩ := ih (fun q hq => h q (List.mem_cons_of_mem _ hq))
    obtain ⟨d, hd⟩ := h p List.mem_cons_self
    exact ⟨d + c, fun θ => by simp only [List.map_cons, List.sum_cons, hd θ, hc θ]; ring⟩

/-- The offset shifts the loss by a constant. -/
theorem lossFunc_shift (l : Loss Θ X) (h : l.BinsMatch) (o : ℝ) :
    ∃ c : ℝ, ∀ θ, l.lossFunc θ (some o) = (l.lossFunc θ none).map (· + c) := by
  obtain ⟨c1, h1⟩ := sum_shift (fun (t : Mod Θ X × Dat X × Option (Range X)) θ => nllTerm t.1 t.2.1 t.2.2 θ (some o))
    (fun t θ => nllTerm t.1 t.2.1 t.2.2 θ none) (l.model.zip (l.data.zip l.fitRange))
    (fun t _ => nllTerm_shift t.1 t.2.1 t.2.2 o)
  obtain ⟨c2, h2⟩ := constraintSum_shift l.kind l.constraints o
  have binned : ∀ (f : Mod Θ X × Dat X → Θ → Option ℝ → Except Err ℝ),
      (∀ p ∈ l.model.zip l.data, ∃ c : ℝ, ∀ θ, f p θ (some o) = (f p θ none).map (· + c)) →
      ∃ c : ℝ, ∀ θ, (do let s ← sumTerms ((l.model.zip l.data).map (fun p => f p θ (some o)))
                        return s + constraintSum l.kind l.constraints θ (some o) : Except Err ℝ)
        = (do let s ← sumTerms ((l.model.zip l.data).map (fun p => f p θ none))
              return s + constraintSum l.kind l.constraints θ none : Except Err ℝ).map (· + c) := by
    intro f hf
    obtain ⟨c3, h3⟩ := sumTerms_shift (fun p θ => f p θ (some o)) (fun p θ => f p θ none) _ hf
    refine ⟨c3 + c2, fun θ => ?_⟩
    rw [h3 θ, h2 θ]
    rcases sumTerms ((l.model.zip l.data).map (fun p => f p θ none)) with e | s
    · rfl
    · simp only [Except.map, except_bind_ok, except_pure, Except.ok.injEq]
      ring
  unfold Loss.lossFunc
  cases hk : l.kind <;> simp only [hk, Loss.BinsMatch, Kind.binned, forall_const, Bool.false_eq_true, false_imp_iff] at h binned ⊢
  · refine ⟨c1 + c2, fun θ => ?_⟩
    rw [h1 θ, ← hk, h2 θ]
    simp only [Except.map, Except.ok.injEq]
    ring
  · obtain ⟨c3, h3⟩ := sumTerms_shift (fun (p : Mod Θ X × Dat X) θ => extTerm p.1 p.2 θ (some o))
      (fun p θ => extTerm p.1 p.2 θ none) (l.model.zip l.data) (fun p _ => extTerm_shift p.1 p.2 o)
    refine ⟨c1 + c2 + c3, fun θ => ?_⟩
    rw [h1 θ, ← hk, h2 θ, h3 θ]
    rcases hs : sumTerms ((l.model.zip l.data).map (fun p => extTerm p.1 p.2 θ none)) with e | s <;> simp only [hs]
    · rfl
    · simp only [Except.map, except_bind_ok, except_pure, Except.ok.injEq]
      ring
  · exact binned (fun p θ o => poissonTerm false p.1 p.2 θ o) (fun p hp => poissonTerm_shift false p.1 p.2 (h p hp) o)
  · exact binned (fun p θ o => poissonTerm true p.1 p.2 θ o) (fun p hp => poissonTerm_shift true p.1 p.2 (h p hp) o)
  · exact binned (fun p θ o => chi2Term false l.opts.errors p.1 p.2 θ o) (fun p hp => chi2Term_shift false l.opts.errors p.1 p.2 (h p hp) o)
  · exact binned (fun p θ o => chi2Term true l.opts.errors p.1 p.2 θ o) (fun p hp => chi2Term_shift true l.opts.errors p.1 p.2 (h p hp) o)

theorem sumTerms_ok {ts : List (Except Err ℝ)} {v : ℝ} (h : sumTerms ts = .ok v) : ∀ t ∈ ts, ∃ x, t = .ok x := by
  induction ts generalizing v with
  | nil => simp
  | cons a as ih =>
    rw [sumTerms_cons] at h
    obtain ⟨x, hx, h⟩ := bind_eq_ok.1 h
    obtain ⟨y, hy, h⟩ := bind_eq_ok.1 h
    intro t ht
    rcases List.mem_cons.1 ht with rfl | ht
    · exact ⟨x, hx⟩
    · exact ih hy t ht

theorem constraintSum_append (k : Kind) (a b : List (Constr Θ)) (θ : Θ) (o : Option ℝ) :
    constraintSum k (a ++ b) θ o = constraintSum k a θ o + constraintSum k b θ o := by
  simp [constraintSum, List.sum_append]

/-- The full value of concatenated lists. -/
theorem lossFunc_append {l l' : Loss Θ X} (h : l.Paired) (hk : l'.kind = l.kind)
    (he : l.kind.chi2 = true → l'.opts.errors = l.opts.errors) (fr : List (Option (Range X))) (opts : Opts)
    (hopts : l.kind.chi2 = true → opts.errors = l.opts.errors) (hfr : fr = l.fitRange ++ l'.fitRange) (θ : Θ) :
    (Loss.mk l.kind (l.model ++ l'.model) (l.data ++ l'.data) fr (l.constraints ++ l'.constraints) opts).lossFunc θ none
      = (do let a ← l.lossFunc θ none; let b ← l'.lossFunc θ none; pure (a + b)) := by
  obtain ⟨h1, h2⟩ := h
  unfold Loss.lossFunc
  subst hfr
  simp only [hk]
  rw [List.zip_append (l₁ := l.data) (by omega), List.zip_append (l₁ := l.model) (by simp; omega), List.zip_append (l₁ := l.model) h1]
  simp only [List.map_append, List.sum_append, constraintSum_append, sumTerms_append]
  cases hkk : l.kind <;> simp only [hkk, Kind.chi2, forall_const] at he hopts ⊢
  · simp only [except_bind_ok, except_pure, Except.ok.injEq]
    ring
  · generalize sumTerms (List.map (fun p => extTerm p.1 p.2 θ none) (l.model.zip l.data)) = A
    generalize sumTerms (List.map (fun p => extTerm p.1 p.2 θ none) (l'.model.zip l'.data)) = B
    rcases A with e | a
    · rfl
    · rcases B with e | b
      · rfl
      · simp only [except_bind_ok, except_pure, Except.ok.injEq]
        ring
  all_goals
    try rw [he]
    try rw [hopts]
    generalize sumTerms (List.map _ (l.model.zip l.data)) = A
    generalize sumTerms (List.map _ (l'.model.zip l'.data)) = B
    rcases A with e | a
    · rfl
    · rcases B with e | b
      · rfl
      · simp only [except_bind_ok, except_pure, Except.ok.injEq]
        ring

/-- If the loss can be evaluated in full and the check of the variances passes, it has this value, whatever was evaluated before. -/
theorem hasValue_of {l : Loss Θ X} (h : l.BinsMatch) (hc : l.checkChi2 = .ok ()) {θ : Θ} {v : ℝ}
    (hv : l.lossFunc θ none = .ok v) : l.HasValue θ v := by
  intro s
  unfold Loss.value Loss.precompile
  by_cases hp : s.precompiled = true
  · simp [hp, hv]
  · have : ∃ o, l.findOffset s θ = .ok o := by
      obtain ⟨c, hc⟩ := lossFunc_shift l h 0
      unfold Loss.findOffset
      rcases l.opts.subtr with _ | _ | _
      · exact ⟨_, rfl⟩
      · rcases s.offset with _ | _
        · exact ⟨_, by simp only [hc θ, hv, Except.map, except_bind_ok, except_pure]; rfl⟩
        · exact ⟨_, rfl⟩
      · exact ⟨_, rfl⟩
    obtain ⟨o, ho⟩ := this
    simp [hp, ho, hc, hv]

theorem lossFunc_of_value {l : Loss Θ X} {s : State} {θ : Θ} {v : ℝ} (h : (l.value s θ true).2 = .ok v) :
    l.lossFunc θ none = .ok v := by
  unfold Loss.value at h
  split at h
  · simp at h
  · simpa using h

end Zfit.Loss
