import Verif.Functor.TruncModel
import Mathlib.MeasureTheory.Measure.Lebesgue.Basic
import Mathlib.Algebra.BigOperators.Group.List.Basic

namespace Zfit.Functor

open Zfit

variable {α V : Type} [LinearOrder α]

/-! ### C27: the values -/

theorem modify_at_length (g : V → V) (pre : List V) (v : V) (post : List V) :
    (pre ++ v :: post).modify pre.length g = pre ++ g v :: post := by
  induction pre with
  | nil => rfl
  | cons a pre ih => simp [ih]

theorem scatter_step [AddZeroClass V] (p : α → Bool) (f : α → V) (xs : List α) (pre : List V) :
    ((trueIdx pre.length (xs.map p)).zip ((select xs (xs.map p)).map f)).foldl
        (fun acc e => acc.modify e.1 (· + e.2)) (pre ++ List.replicate xs.length 0) =
      pre ++ xs.map (fun x => if p x then f x else 0) := by
  induction xs generalizing pre with
  | nil => simp [trueIdx]
  | cons x xs ih =>
    have hrep : List.replicate (x :: xs).length (0 : V) = 0 :: List.replicate xs.length 0 := rfl
    cases hp : p x with
    | true =>
      simp only [List.map_cons, hp, trueIdx, select, if_true, List.zip_cons_cons, List.foldl_cons, hrep]
      have hm : (pre ++ 0 :: List.replicate xs.length 0).modify pre.length (· + f x) =
          (pre ++ [f x]) ++ List.replicate xs.length 0 := by
        rw [modify_at_length]
        simp
      rw [hm]
      have := ih (pre ++ [f x])
      simp only [List.length_append, List.length_cons, List.length_nil, Nat.zero_add] at this
      rw [this]
      simp
    | false =>
      simp only [List.map_cons, hp, trueIdx, select, Bool.false_eq_true, if_false, hrep]
      have := ih (pre ++ [0])
      simp only [List.length_append, List.length_cons, List.length_nil, Nat.zero_add, List.append_assoc,
        List.singleton_append] at this
      rw [this]

/-- C27: for every list of limits and every data, the truncated PDF has the value of the wrapped one at the events inside
any of the limits (including their edges) and zero at all others. -/
theorem truncated_value [AddZeroClass V] (limits : List (α × α)) (f : α → V) (xs : List α) :
    truncEval limits f xs = xs.map (fun x => if ∃ l ∈ limits, l.1 ≤ x ∧ x ≤ l.2 then f x else 0) := by
  have h := scatter_step (inAny limits) f xs []
  simp only [List.length_nil, List.nil_append] at h
  unfold truncEval scatter
  rw [h]
  apply List.map_congr_left
  intro x _
  have : (inAny limits x = true) ↔ ∃ l ∈ limits, l.1 ≤ x ∧ x ≤ l.2 := by
    simp [inAny, inLimit]
  by_cases hx : inAny limits x = true
  · rw [if_pos hx, if_pos (this.1 hx)]
  · rw [if_neg hx, if_neg (fun hc => hx (this.2 hc))]

example : truncEval [((0 : Rat), 1), (2, 3)] (fun x => 10 * x + 1) [-1, 0, 1/2, 3/2, 3, 4] = [0, 1, 6, 0, 31, 0] := by
  decide +kernel

/-! ### C27: the limits -/

theorem checkOverlap_ok (ls : List (α × α)) :
    (checkOverlap ls = .ok () ↔ ls.Pairwise (fun a b => a.2 ≤ b.1)) ∧
    (checkOverlap ls = .ok () ∨ checkOverlap ls = .error .valueError) := by
  induction ls with
  | nil => simp [checkOverlap]
  | cons l ls ih =>
    unfold checkOverlap
    cases ho : overlapsLater l ls with
    | true =>
      simp only [if_true, reduceCtorEq, false_iff, or_true, and_true]
      intro hp
      rw [List.pairwise_cons] at hp
      simp only [overlapsLater, List.any_eq_true, decide_eq_true_eq] at ho
      obtain ⟨m, hm, hlt⟩ := ho
      exact absurd (hp.1 m hm) (not_le.2 hlt)
    | false =>
      simp only [Bool.false_eq_true, if_false, List.pairwise_cons]
      refine ⟨?_, ih.2⟩
      rw [ih.1]
      simp only [iff_and_self]
      intro _ m hm
      by_contra hc
      have : overlapsLater l ls = true := by
        simp only [overlapsLater, List.any_eq_true, decide_eq_true_eq]
        exact ⟨m, hm, not_le.1 hc⟩
      rw [ho] at this
      cases this

/-- C27: given limits of positive length, the constructor accepts them exactly if no two of them overlap (they may
touch), in whatever order they are given; it stores them in increasing order, and rejects the others with
`ValueError`. -/
theorem truncated_limits_accepted_iff (limits : List (α × α)) (hpos : ∀ l ∈ limits, l.1 < l.2) :
    (limits.Pairwise (fun a b => a.2 ≤ b.1 ∨ b.2 ≤ a.1) ∧
      ∃ sorted, checkLimits limits = .ok sorted ∧ sorted.Perm limits ∧ sorted.Pairwise (fun a b => a.2 ≤ b.1)) ∨
    (¬ limits.Pairwise (fun a b => a.2 ≤ b.1 ∨ b.2 ≤ a.1) ∧ checkLimits limits = .error .valueError) := by
  have hperm := List.perm_insertionSort (fun a b : α × α => a.1 ≤ b.1) limits
  have hsort : (limits.insertionSort (fun a b => a.1 ≤ b.1)).Pairwise (fun a b : α × α => a.1 ≤ b.1) := by
    haveI : Std.Total (fun a b : α × α => a.1 ≤ b.1) := ⟨fun a b => le_total a.1 b.1⟩
    haveI : IsTrans (α × α) (fun a b => a.1 ≤ b.1) := ⟨fun a b c => le_trans⟩
    exact List.pairwise_insertionSort _ limits
  have key : limits.Pairwise (fun a b => a.2 ≤ b.1 ∨ b.2 ≤ a.1) ↔
      (limits.insertionSort (fun a b => a.1 ≤ b.1)).Pairwise (fun a b => a.2 ≤ b.1) := by
    rw [← hperm.pairwise_iff (by intro a b h; exact h.symm)]
    constructor
    · intro h
      have := h.and hsort
      refine this.imp_of_mem ?_
      rintro a b ha hb ⟨h1 | h1, h2⟩
      · exact h1
      · have hb' := hpos b (hperm.mem_iff.1 hb)
        exact absurd (lt_of_lt_of_le hb' h1) (not_lt.2 h2)
    · intro h
      exact h.imp (fun h => .inl h)
  have hc := checkOverlap_ok (limits.insertionSort (fun a b => a.1 ≤ b.1))
  rcases hc.2 with h | h
  · left
    have hp := hc.1.1 h
    refine ⟨key.2 hp, _, ?_, hperm, hp⟩
    unfold checkLimits
    simp [h, Except.map]
  · right
    refine ⟨?_, by unfold checkLimits; simp [h, Except.map]⟩
    rw [key, ← hc.1, h]
    simp

example : checkLimits [((2 : Rat), 3), (0, 1), (1, 2)] = .ok [(0, 1), (1, 2), (2, 3)] := by decide +kernel
example : checkLimits [((2 : Rat), 3), (0, 1), (1/2, 2)] = .error .valueError := by decide +kernel

/-! ### C27: integrals and yield -/

open MeasureTheory ENNReal

/-- the union of the limits -/
def covered (limits : List (ℝ × ℝ)) : Set ℝ := {x | ∃ l ∈ limits, l.1 ≤ x ∧ x ≤ l.2}

theorem covered_cons (l : ℝ × ℝ) (ls : List (ℝ × ℝ)) : covered (l :: ls) = Set.Icc l.1 l.2 ∪ covered ls := by
  ext x
  simp [covered]

theorem covered_measurable (ls : List (ℝ × ℝ)) : MeasurableSet (covered ls) := by
  induction ls with
  | nil =>
    have : covered [] = ∅ := by ext x; simp [covered]
    rw [this]
    exact MeasurableSet.empty
  | cons l ls ih =>
    rw [covered_cons]
    exact measurableSet_Icc.union ih

theorem lintegral_covered (f : ℝ → ℝ≥0∞) (ls : List (ℝ × ℝ)) (hp : ls.Pairwise (fun a b => a.2 ≤ b.1)) :
    ∫⁻ x in covered ls, f x = (ls.map (fun l => ∫⁻ x in Set.Icc l.1 l.2, f x)).sum := by
  induction ls with
  | nil =>
    have : covered [] = ∅ := by ext x; simp [covered]
    rw [this]
    simp
  | cons l ls ih =>
    rw [List.pairwise_cons] at hp
    rw [covered_cons, Measure.restrict_union₀ _ (covered_measurable ls).nullMeasurableSet, lintegral_add_measure,
      ih hp.2]
    · simp
    · apply measure_mono_null (t := {l.2})
      · rintro x ⟨⟨_, h1⟩, m, hm, h2, _⟩
        exact le_antisymm h1 (le_trans (hp.1 m hm) h2)
      · exact measure_singleton _

/-- the truncated density -/
noncomputable def truncated (limits : List (ℝ × ℝ)) (f : ℝ → ℝ≥0∞) : ℝ → ℝ≥0∞ := (covered limits).indicator f

theorem lintegral_truncated (f : ℝ → ℝ≥0∞) (limits : List (ℝ × ℝ)) (space : ℝ × ℝ)
    (hin : ∀ l ∈ limits, space.1 ≤ l.1 ∧ l.2 ≤ space.2) (hp : limits.Pairwise (fun a b => a.2 ≤ b.1)) :
    ∫⁻ x in Set.Icc space.1 space.2, truncated limits f x =
      (limits.map (fun l => ∫⁻ x in Set.Icc l.1 l.2, f x)).sum := by
  unfold truncated
  rw [lintegral_indicator (covered_measurable limits), Measure.restrict_restrict (covered_measurable limits),
    Set.inter_eq_left.2, lintegral_covered f limits hp]
  rintro x ⟨l, hl, h1, h2⟩
  exact ⟨le_trans (hin l hl).1 h1, le_trans h2 (hin l hl).2⟩

/-- C27: if the limits are inside the space of the PDF and the wrapped PDF integrates correctly, `integrate` over the
space is the integral of the truncated density over it, and for any other range it does not return a wrong value: it
leaves it to the numeric integration. Missing from the full claim: the cases of `truncated_integral_violated`. -/
theorem truncated_integral_partial (f : ℝ → ℝ≥0∞) (limits : List (ℝ × ℝ)) (space : ℝ × ℝ)
    (hin : ∀ l ∈ limits, space.1 ≤ l.1 ∧ l.2 ≤ space.2) (hp : limits.Pairwise (fun a b => a.2 ≤ b.1))
    (int : ℝ × ℝ → Except Err ℝ≥0∞) (hint : ∀ l ∈ limits, int l = .ok (∫⁻ x in Set.Icc l.1 l.2, f x)) :
    truncIntegrate space limits int space = .ok (∫⁻ x in Set.Icc space.1 space.2, truncated limits f x) ∧
    ∀ range, truncIntegrate space limits int range = .ok (∫⁻ x in Set.Icc range.1 range.2, truncated limits f x) ∨
      truncIntegrate space limits int range = .error .functionNotImplemented := by
  have key : truncIntegrate space limits int space = .ok (∫⁻ x in Set.Icc space.1 space.2, truncated limits f x) := by
    unfold truncIntegrate
    rw [if_neg (by simp), mapM_ok_of_forall _ _ _ hint, except_bind_ok, lintegral_truncated f limits space hin hp]
    rw [List.sum_eq_foldl]
    rfl
  refine ⟨key, fun range => ?_⟩
  by_cases hr : range = space
  · subst hr
    exact Or.inl key
  · right
    unfold truncIntegrate
    rw [if_pos hr]

/-- C27: under the same conditions the scaled yield is the yield times the fraction of the wrapped density (over the
space) that is inside the limits. Missing from the full claim: the cases of `truncated_integral_violated`. -/
theorem truncated_yield_partial (f : ℝ → ℝ≥0∞) (limits : List (ℝ × ℝ)) (space : ℝ × ℝ)
    (hin : ∀ l ∈ limits, space.1 ≤ l.1 ∧ l.2 ≤ space.2) (hp : limits.Pairwise (fun a b => a.2 ≤ b.1)) (y : ℝ≥0∞)
    (int : ℝ × ℝ → Except Err ℝ≥0∞) (hint : ∀ l, int l = .ok (∫⁻ x in Set.Icc l.1 l.2, f x)) :
    scaledYield y space limits int = .ok (y * ((∫⁻ x in Set.Icc space.1 space.2, truncated limits f x) /
      ∫⁻ x in Set.Icc space.1 space.2, f x)) := by
  unfold scaledYield
  rw [hint, except_bind_ok, mapM_ok_of_forall _ _ _ (fun l _ => hint l), except_bind_ok,
    lintegral_truncated f limits space hin hp, ← List.sum_eq_foldl]
  have : ∀ (l : List ℝ≥0∞) (b : ℝ≥0∞), (l.map (· / b)).sum = l.sum / b := by
    intro l b
    induction l with
    | nil => simp
    | cons a l ih => simp [ih, ENNReal.add_div]
  rw [this]
  rfl

/-- non-vacuity: two limits inside the space -/
example : (∀ l ∈ [((0 : ℝ), (1 : ℝ)), (2, 3)], (0 : ℝ) ≤ l.1 ∧ l.2 ≤ 4) ∧
    [((0 : ℝ), (1 : ℝ)), (2, 3)].Pairwise (fun a b => a.2 ≤ b.1) ∧
    ((covered [(0, 1), (2, 3)]).Nonempty) := by
  refine ⟨?_, ?_, ⟨0, (0, 1), by simp, by norm_num, by norm_num⟩⟩
  · intro l hl
    simp only [List.mem_cons, List.not_mem_nil, or_false] at hl
    rcases hl with rfl | rfl <;> norm_num
  · simp only [List.pairwise_cons, List.mem_singleton, forall_eq, List.not_mem_nil, false_imp_iff, implies_true,
      List.Pairwise.nil, and_true]
    norm_num

/-- C27 is violated for limits that go beyond the space of the PDF, which are accepted: `integrate` over the space, and
with it the normalisation of `pdf`, is that over the limits.  Here a flat density truncated to [0, 2] in the space
[0, 1]: two instead of one. -/
theorem truncated_integral_violated :
    checkLimits [((0 : ℝ), 2)] = .ok [(0, 2)] ∧
    truncIntegrate (0, 1) [((0 : ℝ), 2)] (fun l => .ok (∫⁻ _ in Set.Icc l.1 l.2, (1 : ℝ≥0∞))) (0, 1) = .ok 2 ∧
    ∫⁻ x in Set.Icc (0 : ℝ) 1, truncated [(0, 2)] (fun _ => 1) x = 1 := by
  refine ⟨rfl, ?_, ?_⟩
  · unfold truncIntegrate
    rw [if_neg (by simp)]
    simp [bind, Except.bind, pure, Except.pure]
  · have : ∀ x ∈ Set.Icc (0 : ℝ) 1, truncated [(0, 2)] (fun _ => 1) x = 1 := by
      rintro x ⟨h1, h2⟩
      unfold truncated
      rw [Set.indicator_of_mem]
      exact ⟨(0, 2), by simp, h1, by simp only; linarith⟩
    rw [setLIntegral_congr_fun measurableSet_Icc this]
    simp

end Zfit.Functor
