import Verif.Dist.Props
import Mathlib.MeasureTheory.Measure.Lebesgue.Basic

/-! C88: samples of the wrapped distributions by the inverse of the cumulative distribution; C89: the Poisson distribution. -/

namespace Zfit.Dist

open MeasureTheory

/-- C88. As many events as numbers were drawn, each the quantile of a probability between those of the limits. -/
theorem sample_length (d : LibDist) (lo hi : ℝ) (us : List ℝ) (l : List ℝ) (h : analyticSample d lo hi us = .ok l) :
    l.length = us.length := by
  unfold analyticSample at h
  cases hq : d.quantile with
  | none => simp [hq] at h
  | some q =>
    simp only [hq, Except.ok.injEq] at h
    rw [← h]
    simp

/-- C88. Every event is above the lower and not above the upper limit, for any numbers in (0, 1). -/
theorem sample_inside (d : LibDist) (q : ℝ → ℝ) (hd : d.quantile = some q) (hq : IsQuantile q d.cdf) (lo hi : ℝ)
    (h01 : 0 ≤ d.cdf lo) (h11 : d.cdf hi ≤ 1) (hlt : d.cdf lo < d.cdf hi) (us : List ℝ) (hu : ∀ u ∈ us, 0 < u ∧ u < 1) :
    ∃ l, analyticSample d lo hi us = .ok l ∧ l.length = us.length ∧ ∀ x ∈ l, lo < x ∧ x ≤ hi := by
  refine ⟨_, by unfold analyticSample; rw [hd], by simp, ?_⟩
  intro x hx
  simp only [List.map_map, List.mem_map] at hx
  obtain ⟨u, hu', rfl⟩ := hx
  obtain ⟨u0, u1⟩ := hu u hu'
  simp only [Function.comp]
  have hd : 0 < d.cdf hi - d.cdf lo := sub_pos.2 hlt
  have hp1 : 0 < u * (d.cdf hi - d.cdf lo) := mul_pos u0 hd
  have hp2 : u * (d.cdf hi - d.cdf lo) < d.cdf hi - d.cdf lo := mul_lt_of_lt_one_left hd u1
  have hi' := hq _ (by linarith : 0 < d.cdf lo + u * (d.cdf hi - d.cdf lo)) (by linarith)
  constructor
  · rw [← not_le, hi', not_le]
    linarith
  · rw [hi']
    linarith

/-- C88. The events follow the distribution restricted to the limits: the numbers between 0 and 1 whose event is at most `t` have the
measure `(F(t) - F(lo)) / (F(hi) - F(lo))`. -/
theorem sample_distribution (d : LibDist) (q : ℝ → ℝ) (hd : d.quantile = some q) (hq : IsQuantile q d.cdf) (lo hi t : ℝ)
    (h01 : 0 ≤ d.cdf lo) (h11 : d.cdf hi ≤ 1) (hlt : d.cdf lo < d.cdf hi) (h1 : d.cdf lo ≤ d.cdf t) (h2 : d.cdf t ≤ d.cdf hi) :
    volume {u : ℝ | 0 < u ∧ u < 1 ∧ ∃ x, analyticSample d lo hi [u] = .ok [x] ∧ x ≤ t} =
      ENNReal.ofReal ((d.cdf t - d.cdf lo) / (d.cdf hi - d.cdf lo)) := by
  have hpos : 0 < d.cdf hi - d.cdf lo := sub_pos.2 hlt
  obtain ⟨r, hr⟩ : ∃ r, r = (d.cdf t - d.cdf lo) / (d.cdf hi - d.cdf lo) := ⟨_, rfl⟩
  have hr1 : r ≤ 1 := by rw [hr, div_le_one hpos]; linarith
  have hset : ∀ u, (0 < u ∧ u < 1 ∧ ∃ x, analyticSample d lo hi [u] = .ok [x] ∧ x ≤ t) ↔ 0 < u ∧ u < 1 ∧ u ≤ r := by
    intro u
    refine and_congr_right fun u0 => and_congr_right fun u1 => ?_
    have hp1 : 0 < u * (d.cdf hi - d.cdf lo) := mul_pos u0 hpos
    have hp2 : u * (d.cdf hi - d.cdf lo) < d.cdf hi - d.cdf lo := mul_lt_of_lt_one_left hpos u1
    have hi' := hq _ (by linarith : 0 < d.cdf lo + u * (d.cdf hi - d.cdf lo)) (by linarith) t
    simp only [analyticSample, hd, List.map_cons, List.map_nil, Except.ok.injEq, List.cons.injEq, and_true, exists_eq_left']
    rw [hi', hr, le_div_iff₀ hpos]
    constructor <;> intro h <;> linarith
  simp only [hset, ← hr]
  refine le_antisymm ?_ ?_
  · calc volume {u : ℝ | 0 < u ∧ u < 1 ∧ u ≤ r} ≤ volume (Set.Ioc 0 r) := measure_mono fun u h => ⟨h.1, h.2.2⟩
      _ = ENNReal.ofReal r := by rw [Real.volume_Ioc, sub_zero]
  · calc ENNReal.ofReal r = volume (Set.Ioo 0 r) := by rw [Real.volume_Ioo, sub_zero]
      _ ≤ volume {u : ℝ | 0 < u ∧ u < 1 ∧ u ≤ r} := measure_mono fun u h => ⟨h.1, lt_of_lt_of_le h.2 hr1, h.2.le⟩

/-- C88. A distribution whose quantile the library does not have refuses, so that the sample is made by accept-reject instead. -/
theorem sample_refused (d : LibDist) (hd : d.quantile = none) (lo hi : ℝ) (us : List ℝ) :
    analyticSample d lo hi us = .error .noAnalyticSampling := by
  unfold analyticSample
  rw [hd]

open Classical in
/-- The hypotheses of the theorems above are met by the uniform distribution on [0, 1] and the limits 1/4 and 3/4. -/
example : ∃ (d : LibDist) (q : ℝ → ℝ), d.quantile = some q ∧ IsQuantile q d.cdf ∧ 0 ≤ d.cdf (1 / 4) ∧ d.cdf (3 / 4) ≤ 1 ∧
    d.cdf (1 / 4) < d.cdf (3 / 4) ∧ analyticSample d (1 / 4) (3 / 4) [1 / 2] = .ok [1 / 2] := by
  refine ⟨⟨libUniform 0 1, fun x => max 0 (min x 1), some fun p => p⟩, fun p => p, rfl, ?_, by norm_num, by norm_num, by norm_num, ?_⟩
  · intro p p0 p1 t
    simp only [le_max_iff, le_min_iff, not_le.2 p0, false_or]
    exact ⟨fun h => ⟨h, p1.le⟩, fun h => h.1⟩
  · simp only [analyticSample, List.map_cons, List.map_nil]
    norm_num

/-! ## The Poisson distribution -/

theorem libPoisson_pos (lam : ℝ) (h : 0 < lam) (k : ℕ) : 0 < libPoisson lam k := by
  unfold libPoisson
  positivity

/-- C89: the probabilities of two integers are in the ratio of `lam ^ k / k!`, whatever the norm range. -/
theorem poisson_ratio (lam lo hi : ℝ) (j k : ℕ) :
    poissonPdf lam j lo hi * (lam ^ k / k.factorial) = poissonPdf lam k lo hi * (lam ^ j / j.factorial) := by
  unfold poissonPdf libPoisson
  ring

/-- The probability of the integers up to `n` is that of those not above `m` and of those above. -/
theorem poisson_split (lam : ℝ) (m : ℝ) (hm : 0 ≤ m) (n : ℕ) (h : ⌊m⌋₊ ≤ n) :
    (((List.range (n + 1)).filter fun k : ℕ => decide (m < k)).map (libPoisson lam)).sum =
      ((List.range (n + 1)).map (libPoisson lam)).sum - ((List.range (⌊m⌋₊ + 1)).map (libPoisson lam)).sum := by
  induction n with
  | zero =>
    have h0 : ⌊m⌋₊ = 0 := by omega
    simp [h0, hm]
  | succ n ih =>
    rcases Nat.lt_or_eq_of_le h with hlt | heq
    · rw [List.range_succ, List.filter_append, List.map_append, List.sum_append, List.map_append, List.sum_append, ih (by omega)]
      have hlt' : m < ((n + 1 : ℕ) : ℝ) := (Nat.floor_lt hm).1 hlt
      rw [List.filter_singleton]
      simp only [hlt', decide_true, cond_true, List.map_cons, List.map_nil, List.sum_singleton]
      ring
    · rw [heq, sub_self]
      have : (List.range (n + 1 + 1)).filter (fun k : ℕ => decide (m < k)) = [] := by
        rw [List.filter_eq_nil_iff]
        intro k hk
        rw [decide_eq_true_eq, not_lt]
        rw [List.mem_range] at hk
        exact (Nat.le_floor_iff hm).1 (by omega)
      rw [this]
      rfl

/-- C89. The probabilities of the integers above the lower and not above the upper limit of the norm range add up to one. Missing from the
full claim: the cases of `poisson_sum_violated`. -/
theorem poisson_sum_partial (lam : ℝ) (hlam : 0 < lam) (lo hi : ℝ) (hhi : 0 ≤ hi) (hk : ∃ k : ℕ, lo < k ∧ k ≤ hi) :
    (((List.range (⌊hi⌋₊ + 1)).filter fun k : ℕ => decide (lo < k)).map fun k => poissonPdf lam k lo hi).sum = 1 := by
  have hdiv : ∀ (l : List ℕ) (c : ℝ), (l.map fun k => libPoisson lam k / c).sum = (l.map (libPoisson lam)).sum / c := by
    intro l c
    induction l with
    | nil => simp
    | cons a l ih => simp only [List.map_cons, List.sum_cons, ih]; ring
  simp only [poissonPdf]
  rw [hdiv]
  have heq : (((List.range (⌊hi⌋₊ + 1)).filter fun k : ℕ => decide (lo < k)).map (libPoisson lam)).sum =
      libPoissonCdf lam hi - libPoissonCdf lam lo := by
    unfold libPoissonCdf
    rw [if_neg (not_lt.2 hhi)]
    by_cases hlo : lo < 0
    · rw [if_pos hlo, sub_zero]
      congr 2
      rw [List.filter_eq_self]
      intro k _
      rw [decide_eq_true_eq]
      exact lt_of_lt_of_le hlo (Nat.cast_nonneg k)
    · rw [if_neg hlo]
      obtain ⟨k, k1, k2⟩ := hk
      exact poisson_split lam lo (not_lt.1 hlo) _ (Nat.floor_mono (k1.le.trans k2))
  rw [heq]
  refine div_self (ne_of_gt ?_)
  rw [← heq]
  obtain ⟨k, k1, k2⟩ := hk
  apply List.sum_pos
  · intro x hx
    obtain ⟨k, _, rfl⟩ := List.mem_map.1 hx
    exact libPoisson_pos lam hlam k
  · rw [ne_eq, List.map_eq_nil_iff, List.filter_eq_nil_iff]
    intro hall
    have hmem : k ∈ List.range (⌊hi⌋₊ + 1) := List.mem_range.2 (Nat.lt_succ_of_le (Nat.le_floor k2))
    have := hall k hmem
    rw [decide_eq_true_eq] at this
    exact this k1

/-- The hypotheses are met. -/
example : ∃ k : ℕ, (-1 : ℝ) < k ∧ (k : ℝ) ≤ 5 / 2 := ⟨2, by norm_num, by norm_num⟩

/-- C89, counterexample. If the lower limit is an integer, its probability is missing in the normalisation though the value belongs to
the range: with the rate 1 and the norm range [0, 1] the probabilities of 0 and 1, the only integers in the range, add up to two. -/
theorem poisson_sum_violated : poissonPdf 1 0 0 1 + poissonPdf 1 1 0 1 = 2 := by
  have h0 : libPoissonCdf 1 0 = libPoisson 1 0 := by simp [libPoissonCdf]
  have h1 : libPoissonCdf 1 1 = libPoisson 1 0 + libPoisson 1 1 := by
    simp [libPoissonCdf, List.range_succ]
  have h2 : libPoisson 1 1 = libPoisson 1 0 := by simp [libPoisson]
  have h3 := (libPoisson_pos 1 one_pos 0).ne'
  simp only [poissonPdf, h0, h1, h2]
  field_simp
  norm_num

end Zfit.Dist
