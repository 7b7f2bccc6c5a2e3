import Verif.Functor.ToTruncModel
import Mathlib.Tactic.Linarith

/-!
# Property C286 (see /verif/properties.jsonl): `to_truncated` and `TruncatedPDF`

`truncated limits f` (TruncProps.lean) is the density `f` inside the limits and zero outside.
-/

namespace Zfit.Functor

open Zfit MeasureTheory ENNReal

/-- The normalisation is the integral of the density over the limits if these are inside both the space and the norm. -/
theorem normValue_inside (t : TruncPdf) (hs : ∀ l ∈ t.limits, t.space.1 ≤ l.1 ∧ l.2 ≤ t.space.2) (hn : ∀ l ∈ t.limits, t.norm.1 ≤ l.1 ∧ l.2 ≤ t.norm.2)
    (hp : t.limits.Pairwise (fun a b => a.2 ≤ b.1)) : t.normValue = (t.limits.map (fun l => ∫⁻ x in Set.Icc l.1 l.2, t.f x)).sum := by
  unfold TruncPdf.normValue
  by_cases h : t.norm = t.space
  · rw [h, (truncated_integral_partial t.f t.limits t.space hs hp _ (fun l _ => rfl)).1]
    exact lintegral_truncated t.f t.limits t.space hs hp
  · unfold truncIntegrate
    rw [if_pos h]
    exact lintegral_truncated t.f t.limits t.norm hn hp

/-- C286, objects.  `to_truncated` is `TruncatedPDF` with the space as limits if none are given, whenever the norm is given or the new PDF has the
space the original is normalised over.
Missing from the full claim: other spaces without a norm (`to_truncated_norm_violated`). -/
theorem to_truncated_same_partial (p : TruncSource) (limits : Option (List (ℝ × ℝ))) (obs norm : Option (ℝ × ℝ))
    (h : norm.isSome ∨ obs.getD p.space = p.norm) :
    toTruncated p limits obs norm = makeTruncated p (limits.getD [obs.getD p.space]) obs norm := by
  unfold toTruncated makeTruncated
  cases norm with
  | some n => rfl
  | none =>
    rcases h with h | h
    · cases h
    · simp [h]

/-- C286, values.  Without a norm, if the limits do not overlap and are inside both the new space and the norm of the original PDF, both give the same
values.
Missing from the full claim: limits that are not inside the norm of the original PDF (`to_truncated_norm_violated`). -/
theorem to_truncated_values_partial (p : TruncSource) (limits : Option (List (ℝ × ℝ))) (obs : Option (ℝ × ℝ)) (t t' : TruncPdf)
    (ht : toTruncated p limits obs none = .ok t) (ht' : makeTruncated p (limits.getD [obs.getD p.space]) obs none = .ok t')
    (hpos : ∀ l ∈ limits.getD [obs.getD p.space], l.1 < l.2)
    (hn : ∀ l ∈ limits.getD [obs.getD p.space], p.norm.1 ≤ l.1 ∧ l.2 ≤ p.norm.2)
    (hs : ∀ l ∈ limits.getD [obs.getD p.space], (obs.getD p.space).1 ≤ l.1 ∧ l.2 ≤ (obs.getD p.space).2) : t.pdf = t'.pdf := by
  unfold toTruncated makeTruncated at ht
  unfold makeTruncated at ht'
  rcases truncated_limits_accepted_iff (limits.getD [obs.getD p.space]) hpos with ⟨-, sorted, h1, hperm, hpw⟩ | ⟨-, h1⟩
  · simp only [h1, except_bind_ok, except_pure, Except.ok.injEq] at ht ht'
    subst ht ht'
    have hs' : ∀ l ∈ sorted, (obs.getD p.space).1 ≤ l.1 ∧ l.2 ≤ (obs.getD p.space).2 := fun l hl => hs l (hperm.mem_iff.1 hl)
    have hn' : ∀ l ∈ sorted, p.norm.1 ≤ l.1 ∧ l.2 ≤ p.norm.2 := fun l hl => hn l (hperm.mem_iff.1 hl)
    funext x
    unfold TruncPdf.pdf
    rw [normValue_inside _ hs' hn' hpw, normValue_inside _ hs' hs' hpw]
  · simp only [h1] at ht
    cases ht

/-- C286, defaults.  `to_truncated()` of a PDF that is normalised over its space: the PDF inside its space, zero outside, and integral one. -/
theorem to_truncated_default (p : TruncSource) (h : p.norm = p.space) :
    ∃ t, toTruncated p none none none = .ok t ∧
      (∀ x, t.pdf x = if p.space.1 ≤ x ∧ x ≤ p.space.2 then p.f x / ∫⁻ y in Set.Icc p.space.1 p.space.2, p.f y else 0) ∧
      ((∫⁻ y in Set.Icc p.space.1 p.space.2, p.f y) ≠ 0 → (∫⁻ y in Set.Icc p.space.1 p.space.2, p.f y) ≠ ∞ → ∫⁻ x, t.pdf x = 1) := by
  have hval : ∀ x, (TruncPdf.mk p.f p.space [p.space] p.space).pdf x =
      (Set.Icc p.space.1 p.space.2).indicator p.f x / ∫⁻ y in Set.Icc p.space.1 p.space.2, p.f y := by
    intro x
    unfold TruncPdf.pdf
    rw [normValue_inside _ (by simp) (by simp) (by simp)]
    have : covered [p.space] = Set.Icc p.space.1 p.space.2 := by
      ext y; simp [covered]
    simp [truncated, this]
  refine ⟨⟨p.f, p.space, [p.space], p.space⟩, ?_, ?_, ?_⟩
  · simp [toTruncated, makeTruncated, checkLimits, checkOverlap, overlapsLater, Except.map, h]
  · intro x
    rw [hval, Set.indicator_apply]
    simp only [Set.mem_Icc]
    split <;> simp
  · intro h0 h1
    simp only [hval, div_eq_mul_inv]
    rw [lintegral_mul_const' _ _ (by simpa using h0), lintegral_indicator measurableSet_Icc]
    exact ENNReal.mul_inv_cancel h0 h1

theorem flat_integral (a b c d : ℝ) (h1 : a ≤ c) (h2 : c ≤ b) (h3 : b ≤ d) :
    ∫⁻ x in Set.Icc a b, truncated [(c, d)] (fun _ => 1) x = ENNReal.ofReal (b - c) := by
  have hc : covered [(c, d)] = Set.Icc c d := by ext y; simp [covered]
  unfold truncated
  rw [hc, lintegral_indicator measurableSet_Icc, Measure.restrict_restrict measurableSet_Icc, Set.Icc_inter_Icc]
  simp only [lintegral_const, MeasurableSet.univ, Measure.restrict_apply, Set.univ_inter, Real.volume_Icc, one_mul]
  rw [max_eq_left h1, min_eq_right h3]

/-- C286 is violated if the space is given and the norm is not: the norm is then that of the original PDF instead of the new space.  A flat PDF on
[0, 3], truncated to [2, 5] with the space [2, 5]: `TruncatedPDF` gives 1/3 in the limits, `to_truncated` gives 1, so that the integral of the
PDF over its space is three. -/
theorem to_truncated_norm_violated :
    ∃ (p : TruncSource) (t t' : TruncPdf), p.norm = p.space ∧ toTruncated p (some [(2, 5)]) (some (2, 5)) none = .ok t ∧
      makeTruncated p [(2, 5)] (some (2, 5)) none = .ok t' ∧ t.pdf 4 = 1 ∧ t'.pdf 4 = 1 / 3 ∧
      ∫⁻ x in Set.Icc 2 5, t.pdf x = 3 ∧ ∫⁻ x in Set.Icc 2 5, t'.pdf x = 1 := by
  have hc : covered [((2 : ℝ), 5)] = Set.Icc 2 5 := by ext y; simp [covered]
  have hin : ∀ x : ℝ, truncated [(2, 5)] (fun _ => (1 : ℝ≥0∞)) x = (Set.Icc 2 5).indicator (fun _ => 1) x := by
    intro x; rw [truncated, hc]
  have e1 : (TruncPdf.mk (fun _ => 1) (2, 5) [(2, 5)] (0, 3)).normValue = 1 := by
    unfold TruncPdf.normValue truncIntegrate
    rw [if_pos (by simp)]
    simp only
    rw [flat_integral 0 3 2 5 (by norm_num) (by norm_num) (by norm_num)]
    norm_num
  have e2 : (TruncPdf.mk (fun _ => 1) (2, 5) [(2, 5)] (2, 5)).normValue = 3 := by
    rw [normValue_inside _ (by simp) (by simp) (by simp)]
    simp only [lintegral_const, MeasurableSet.univ, Measure.restrict_apply, Set.univ_inter, Real.volume_Icc, one_mul, List.map_cons, List.map_nil,
      List.sum_cons, List.sum_nil, add_zero]
    norm_num
  have hint : ∫⁻ x in Set.Icc (2 : ℝ) 5, truncated [(2, 5)] (fun _ => (1 : ℝ≥0∞)) x = 3 := by
    rw [flat_integral 2 5 2 5 (by norm_num) (by norm_num) (by norm_num)]
    norm_num
  refine ⟨⟨fun _ => 1, (0, 3), (0, 3)⟩, ⟨fun _ => 1, (2, 5), [(2, 5)], (0, 3)⟩, ⟨fun _ => 1, (2, 5), [(2, 5)], (2, 5)⟩, rfl, ?_, ?_, ?_, ?_, ?_, ?_⟩
  · simp [toTruncated, makeTruncated, checkLimits, checkOverlap, overlapsLater, Except.map]
  · simp [makeTruncated, checkLimits, checkOverlap, overlapsLater, Except.map]
  · unfold TruncPdf.pdf
    rw [e1, hin, Set.indicator_of_mem (by constructor <;> norm_num)]
    simp
  · unfold TruncPdf.pdf
    rw [e2, hin, Set.indicator_of_mem (by constructor <;> norm_num)]
  · simp only [TruncPdf.pdf, e1, div_one]
    exact hint
  · simp only [TruncPdf.pdf, e2, div_eq_mul_inv]
    rw [lintegral_mul_const' _ _ (by simp), hint]
    exact ENNReal.mul_inv_cancel (by norm_num) (by norm_num)

/-- A PDF on [0, 10] truncated to [1, 2] and [4, 6]: the limits are inside the space and the norm. -/
example : ∀ l ∈ [((1 : ℝ), (2 : ℝ)), (4, 6)], (0 : ℝ) ≤ l.1 ∧ l.2 ≤ 10 ∧ l.1 < l.2 := by
  intro l hl
  simp only [List.mem_cons, List.not_mem_nil, or_false] at hl
  rcases hl with rfl | rfl <;> norm_num

end Zfit.Functor
