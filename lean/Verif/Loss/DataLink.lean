import Verif.Loss.DataLinkModel
import Verif.Data.Props
import Mathlib.Data.Rat.Cast.Order
import Mathlib.Algebra.BigOperators.Group.List.Basic
import Mathlib.Tactic.NormNum
import Mathlib.Tactic.Ring

/-!
# The value of a likelihood in terms of the arrays given

C309 `nll_from_arrays`, `extended_nll_from_arrays`, `nll_from_one_array`
-/

namespace Zfit.Loss

open Zfit Zfit.Dat

variable {Θ : Type}

/-! ## Specification -/

/-- The events of an array with their weights; without weights every event counts once. -/
def given (pts : List (String → Rat)) (w : Option (List Rat)) : List ((String → Rat) × Rat) :=
  match w with
  | none => pts.map (fun p => (p, 1))
  | some l => pts.zip l

/-- An event lies in the fit range, if there is one. -/
def inRange (r : Option DSpace) (p : String → Rat) : Bool :=
  match r with
  | none => true
  | some s => s.contains p

/-- What the user has for one term of a likelihood: a PDF, a space, an array of events (described by the value of every observable),
perhaps weights and perhaps a fit range. -/
structure Case (Θ : Type) where
  model : Density Θ
  space : DSpace
  events : List (String → Rat)
  weights : Option (List Rat)
  range : Option DSpace

/-- The array of a case: one row per event, one column per observable of the space, in its order. -/
def Case.array (c : Case Θ) : Tensor := ⟨c.space.obs.length, table c.space.obs c.events⟩

/-- The case is one that makes sense: the spaces can be built, there is a weight for every event, the fit range is about observables of the
data, and so is the PDF (about those of the fit range, if there is one). -/
def Case.Proper (c : Case Θ) : Prop :=
  c.space.Proper ∧ Weighted c.events c.weights ∧ (∀ r, c.range = some r → r.Proper ∧ ∀ o ∈ r.obs, o ∈ c.space.obs) ∧
  c.model.obs ≠ [] ∧ c.model.obs.Nodup ∧ ∀ o ∈ c.model.obs, o ∈ (c.range.getD c.space).obs

/-- The contribution of the events inside the space and inside the fit range: minus the logarithm of the density at the values of the
PDF's observables, times the weight. -/
noncomputable def Case.term (c : Case Θ) (θ : Θ) : ℝ :=
  -(((given c.events c.weights).filter (fun e => c.space.contains e.1 && inRange c.range e.1)).map
      (fun e => (e.2 : ℝ) * Real.log (c.model.pdf c.range θ (c.model.obs.map (fun o => ((e.1 o : Rat) : ℝ))) + eps))).sum

/-- The sum of the weights inside the space. -/
noncomputable def Case.size (c : Case Θ) : ℝ :=
  (((given c.events c.weights).filter (fun e => c.space.contains e.1)).map (fun e => (e.2 : ℝ))).sum

/-! ## Lemmas -/

theorem given_kept {pts : List (String → Rat)} {w : Option (List Rat)} (hw : Weighted pts w) (k : (String → Rat) → Bool) :
    given (pts.filter k) (keptWeights k pts w) = (given pts w).filter (fun e => k e.1) := by
  cases w with
  | none =>
    simp only [given, keptWeights, Option.map_none, List.filter_map]
    rfl
  | some l =>
    simp only [given, keptWeights, Option.map_some]
    have hl := hw l rfl
    clear hw
    induction pts generalizing l with
    | nil => simp
    | cons p ps ih =>
      rcases l with _ | ⟨v, l⟩
      · simp at hl
      · have := ih l (by simpa using hl)
        by_cases hk : k p = true
        · simp [List.filter_cons, hk, this]
        · simp [List.filter_cons, hk, this]

theorem withObs_ok {d : Data} {pts : List (String → Rat)} {w : Option (List Rat)} (h : Inv d pts w)
    (hin : ∀ p ∈ pts, d.space.contains p = true) {l : List String} (hne : l ≠ []) (hn : l.Nodup) (hs : ∀ o ∈ l, o ∈ d.space.obs) :
    ∃ x, d.withObs l = .ok x ∧ x.space.obs = l ∧ Inv x pts w := by
  obtain ⟨s', e1, e2⟩ := withObs_all (s := d.space) hne hs
  obtain ⟨hp, -, hc⟩ := withObs_space h.1 hn e1
  obtain ⟨ds, e3, e4, -⟩ := h.select hne hs
  obtain ⟨idx, e5, e6⟩ := bind_eq_ok.1 e3
  obtain ⟨x, e7, e8, e9⟩ := make_inside hp (by rw [e2]; exact e4) h.2.2.2 (fun p hh => hc p (hin p hh))
  refine ⟨x, ?_, by rw [e8, e2], e9⟩
  simp only [Data.withObs, e1, except_bind_ok, e2, e5, e6, h.2.2.1, e7]

theorem probs_ok (m : Density Θ) {d : Data} {pts : List (String → Rat)} {w : Option (List Rat)} (h : Inv d pts w)
    (hin : ∀ p ∈ pts, d.space.contains p = true) (hne : m.obs ≠ []) (hn : m.obs.Nodup) (hs : ∀ o ∈ m.obs, o ∈ d.space.obs)
    (r : Option DSpace) (θ : Θ) :
    m.probs d r θ = .ok (pts.map (fun p => m.pdf r θ (m.obs.map (fun o => ((p o : Rat) : ℝ))))) := by
  obtain ⟨x, h1, h2, h3⟩ := withObs_ok h hin hne hn hs
  obtain ⟨d', h4⟩ := Shows.read h3.shows none (by intro x hx; cases hx)
  simp only [Option.getD_none, h2] at h4
  simp only [Density.probs, h1, h4, except_bind_ok, except_pure, table, List.map_map]
  congr 1
  apply List.map_congr_left
  intro p _
  simp [Function.comp_def]

theorem nllCalc_given (pts : List (String → Rat)) (w : Option (List Rat)) (hw : Weighted pts w) (g : (String → Rat) → ℝ) :
    nllCalc (pts.map g) (w.map (fun l => l.map (fun (q : Rat) => (q : ℝ)))) none
      = -((given pts w).map (fun e => (e.2 : ℝ) * g e.1)).sum := by
  cases w with
  | none => simp [nllCalc, given, Function.comp_def]
  | some l =>
    simp only [nllCalc, given, Option.map_some]
    have hl := hw l rfl
    clear hw
    congr 1
    induction pts generalizing l with
    | nil => simp
    | cons p ps ih =>
      rcases l with _ | ⟨v, l⟩
      · simp at hl
      · simp only [List.map_cons, List.zipWith_cons_cons, List.sum_cons, List.zip_cons_cons]
        rw [ih l (by simpa using hl)]
        ring

theorem weightsFor_ok {d : Data} {pts : List (String → Rat)} {w : Option (List Rat)} (h : Inv d pts w) {n : Nat} (hn : n = pts.length) :
    weightsFor d n = .ok (w.map (fun l => l.map (fun (q : Rat) => (q : ℝ)))) := by
  unfold weightsFor
  rw [h.2.2.1]
  cases w with
  | none => rfl
  | some l => simp [hn, h.2.2.2 l rfl]

theorem data_inv (c : Case Θ) (hc : c.Proper) : ∃ d, Data.fromTensor c.space c.array c.weights false = .ok d ∧ d.space = c.space ∧
    Inv d (c.events.filter c.space.contains) (keptWeights c.space.contains c.events c.weights) ∧ ∃ t m, d.ds = .tensor t m := by
  obtain ⟨t, m, h1, h2⟩ := holds_fromTensor c.space.obs c.events
  obtain ⟨d1, h3, h4, h5, h6⟩ := make_tensor_inv hc.1 h2 hc.2.1
  exact ⟨d1, by simp only [Data.fromTensor, Case.array, h1, except_bind_ok, h3], h4, h5, h6⟩

theorem cut_inv (c : Case Θ) (hc : c.Proper) {d : Data} (hd : Data.fromTensor c.space c.array c.weights false = .ok d) :
    ∃ d' P W, cutTo d c.range = .ok d' ∧ d'.space = c.range.getD c.space ∧ Inv d' P W ∧ (∀ p ∈ P, d'.space.contains p = true) ∧
      given P W = (given c.events c.weights).filter (fun e => c.space.contains e.1 && inRange c.range e.1) := by
  obtain ⟨d1, h3, h4, h5, h6⟩ := data_inv c hc
  rw [hd] at h3
  cases h3
  have hg := given_kept hc.2.1 c.space.contains
  rcases hr : c.range with _ | r
  · refine ⟨d, _, _, rfl, h4, h5, ?_, ?_⟩
    · intro p hp
      rw [h4]
      exact (List.mem_filter.1 hp).2
    · rw [hg]; simp [inRange]
  · obtain ⟨hp, hsub⟩ := hc.2.2.1 r hr
    obtain ⟨s2, e1, -⟩ := withObs_all (s := d.space) hp.1 (by rw [h4]; exact hsub)
    obtain ⟨ds, e2, e3, e4⟩ := h5.select hp.1 (by rw [h4]; exact hsub)
    obtain ⟨idx, e5, e6⟩ := bind_eq_ok.1 e2
    obtain ⟨t2, m2, rfl⟩ := e4 h6
    obtain ⟨d2, e7, e8, e9, -⟩ := make_tensor_inv hp e3 (keptWeights_weighted c.space.contains hc.2.1)
    refine ⟨d2, _, _, ?_, e8, e9, ?_, ?_⟩
    · simp only [cutTo, Data.withSpace, e1, except_bind_ok, e5, e6, h5.2.2.1, e7]
    · intro p hp
      rw [e8]
      exact (List.mem_filter.1 hp).2
    · rw [given_kept (keptWeights_weighted c.space.contains hc.2.1), hg, List.filter_filter]
      apply List.filter_congr
      intro e _
      simp [inRange, Bool.and_comm]

/-! ## C309 -/

/-- C309, one term.  From an array of events the data can be built, and the term of the likelihood is minus the sum, over the events inside
the space of the data and inside the fit range, of the weight times the logarithm of the density.  The density is evaluated at the values
of the PDF's observables, whatever the order of the columns of the array and whatever other columns there are. -/
theorem nll_from_one_array (c : Case Θ) (hc : c.Proper) (θ : Θ) :
    ∃ d, Data.fromTensor c.space c.array c.weights false = .ok d ∧ nllOnData c.model d c.range θ = .ok (c.term θ) := by
  obtain ⟨d, hd, -, -, -⟩ := data_inv c hc
  obtain ⟨d', P, W, h1, h2, h3, h4, h5⟩ := cut_inv c hc hd
  refine ⟨d, hd, ?_⟩
  have hp := probs_ok c.model h3 h4 hc.2.2.2.1 hc.2.2.2.2.1 (by rw [h2]; exact hc.2.2.2.2.2) c.range θ
  have hw := weightsFor_ok h3 (n := (P.map (fun p => c.model.pdf c.range θ (c.model.obs.map (fun o => ((p o : Rat) : ℝ))))).length) (by simp)
  simp only [nllOnData, h1, except_bind_ok, hp, hw, except_pure, List.map_map]
  have := nllCalc_given P W h3.2.2.2 (fun p => Real.log (c.model.pdf c.range θ (c.model.obs.map (fun o => ((p o : Rat) : ℝ))) + eps))
  rw [h5] at this
  exact congrArg Except.ok this

/-- The inputs of a likelihood that are built from the cases, one after the other. -/
def Built (cs : List (Case Θ)) (l : List (Input Θ)) : Prop :=
  List.Forall₂ (fun c i => i.model = c.model ∧ i.range = c.range ∧ Data.fromTensor c.space c.array c.weights false = .ok i.data) cs l

theorem built_terms {cs : List (Case Θ)} (hc : ∀ c ∈ cs, c.Proper) {l : List (Input Θ)} (hl : Built cs l) (θ : Θ) :
    l.mapM (fun i => nllOnData i.model i.data i.range θ) = .ok (cs.map (·.term θ)) := by
  induction hl with
  | nil => rfl
  | @cons c i cs l h _ ih =>
    obtain ⟨d, h1, h2⟩ := nll_from_one_array c (hc c (by simp)) θ
    obtain ⟨e1, e2, e3⟩ := h
    rw [e3] at h1
    cases h1
    simp only [List.mapM_cons, e1, e2, h2, ih (fun c hh => hc c (by simp [hh])), except_bind_ok, except_pure, List.map_cons]

/-- C309.  For any number of PDFs, arrays, weights and fit ranges, the value of the likelihood is the sum of the terms of the cases and of
the constraints. -/
theorem nll_from_arrays (cs : List (Case Θ)) (hc : ∀ c ∈ cs, c.Proper) (constr : List (Constr Θ)) :
    ∃ l, Built cs l ∧ ∀ θ, nllOnAll l constr θ = .ok ((cs.map (·.term θ)).sum + (constr.map (·.value θ)).sum) := by
  have : ∃ l, Built cs l := by
    induction cs with
    | nil => exact ⟨[], .nil⟩
    | cons c cs ih =>
      obtain ⟨l, hl⟩ := ih (fun c hh => hc c (by simp [hh]))
      obtain ⟨d, h1, -⟩ := data_inv c (hc c (by simp))
      exact ⟨⟨c.model, d, c.range⟩ :: l, .cons ⟨rfl, rfl, h1⟩ hl⟩
  obtain ⟨l, hl⟩ := this
  refine ⟨l, hl, fun θ => ?_⟩
  simp only [nllOnAll, built_terms hc hl θ, except_bind_ok, except_pure]

theorem size_ok (c : Case Θ) (hc : c.Proper) {d : Data} (hd : Data.fromTensor c.space c.array c.weights false = .ok d) :
    ((d.samplesize : Rat) : ℝ) = c.size := by
  obtain ⟨m, s, pts, w, r⟩ := c
  have h := samplesize_of_cut s hc.1 pts w hc.2.1 d hd
  unfold Case.size
  rw [h]
  cases w with
  | none =>
    simp only [given, List.filter_map, List.map_map]
    simp [Function.comp_def]
  | some w =>
    simp only [given]
    rw [Rat.cast_list_sum, List.map_map]
    rfl

/-- C309, extended likelihood: the Poisson term of the sum of the weights inside the space of the data is added for every PDF. -/
theorem extended_nll_from_arrays (cs : List (Case Θ)) (hc : ∀ c ∈ cs, c.Proper) (constr : List (Constr Θ)) (θ : Θ)
    (y : Case Θ → Θ → ℝ) (hy : ∀ c ∈ cs, c.model.yield = some (y c)) (hpos : ∀ c ∈ cs, 0 < y c θ) :
    ∃ l, Built cs l ∧ extNllOnAll l constr θ = .ok ((cs.map (·.term θ)).sum + (constr.map (·.value θ)).sum
      + (cs.map (fun c => y c θ - c.size * Real.log (y c θ) + stirling c.size)).sum) := by
  obtain ⟨l, hl, hv⟩ := nll_from_arrays cs hc constr
  refine ⟨l, hl, ?_⟩
  have : l.mapM (fun i => extOnData i.model i.data θ)
      = .ok (cs.map (fun c => y c θ - c.size * Real.log (y c θ) + stirling c.size)) := by
    clear hv
    induction hl with
    | nil => rfl
    | @cons c i cs l h _ ih =>
      obtain ⟨e1, e2, e3⟩ := h
      have hs := size_ok c (hc c (by simp)) e3
      have := ih (fun c hh => hc c (by simp [hh])) (fun c hh => hy c (by simp [hh])) (fun c hh => hpos c (by simp [hh]))
      have h0 : extOnData i.model i.data θ = .ok (y c θ - c.size * Real.log (y c θ) + stirling c.size) := by
        simp only [extOnData, e1, hy c (by simp), hs, logPoissonLoss, if_true, Real.exp_log (hpos c (by simp))]
        congr 1
        ring
      simp only [List.mapM_cons, h0, this, except_bind_ok, except_pure, List.map_cons]
  simp only [extNllOnAll, hv θ, this, except_bind_ok, except_pure]

/-- Non-vacuity: an array with the columns x and y, the second event outside the space and the third outside the fit range; the PDF has the
observables in the other order. -/
noncomputable def exCase : Case Unit where
  model := ⟨["y", "x"], fun _ _ v => v.getD 0 0, some (fun _ => 3)⟩
  space := ⟨["x", "y"], some [[(0, 10), (0, 10)]]⟩
  events := [fun o => if o = "x" then 1 else 2, fun o => if o = "x" then 11 else 2, fun o => if o = "x" then 9 else 5]
  weights := some [4, 5, 6]
  range := some ⟨["y", "x"], some [[(0, 3), (0, 3)]]⟩

example : exCase.Proper ∧ exCase.term () = -(4 * Real.log (2 + eps)) ∧ exCase.size = 10 := by
  refine ⟨⟨?_, ?_, ?_, by simp [exCase], by simp [exCase], by simp [exCase]⟩, ?_, ?_⟩
  · refine ⟨by simp [exCase], by simp [exCase], ?_⟩
    intro ls hls b hb
    simp only [exCase, Option.some.injEq] at hls
    subst hls
    simp only [List.mem_singleton] at hb
    subst hb
    rfl
  · intro l hl
    simp only [exCase, Option.some.injEq] at hl
    subst hl
    rfl
  · intro r hr
    simp only [exCase, Option.some.injEq] at hr
    subst hr
    refine ⟨⟨by simp, by simp, ?_⟩, by simp [exCase]⟩
    intro ls hls b hb
    simp only [Option.some.injEq] at hls
    subst hls
    simp only [List.mem_singleton] at hb
    subst hb
    rfl
  · have e : (given exCase.events exCase.weights).filter (fun e => exCase.space.contains e.1 && inRange exCase.range e.1)
        = [((fun o => if o = "x" then 1 else 2), 4)] := by
      simp [given, exCase, DSpace.contains, inRange, List.filter_cons]
      norm_num
    rw [Case.term, e]
    simp [exCase]
  · have e : (given exCase.events exCase.weights).filter (fun e => exCase.space.contains e.1)
        = [((fun o => if o = "x" then 1 else 2), 4), ((fun o => if o = "x" then 9 else 5), 6)] := by
      simp [given, exCase, DSpace.contains, List.filter_cons]
      norm_num
    rw [Case.size, e]
    norm_num

end Zfit.Loss
