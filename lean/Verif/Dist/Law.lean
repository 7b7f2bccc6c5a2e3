import Verif.Dist.Sample
import Verif.Sample.Inverse

/-!
# Property C276: the law of samples of wrapped distributions

* C276 `wrapped_sample_law`, `wrapped_limits_law`
-/

namespace Zfit.Dist

open MeasureTheory ENNReal ProbabilityTheory
open Sample (unitLaw)

/-- The distribution with the density `prob` with respect to the Lebesgue measure. -/
noncomputable def distOf (d : LibDist) : Measure ℝ := volume.withDensity fun x => ENNReal.ofReal (d.prob x)

/-- What the library guarantees about a continuous distribution: the density is not negative, `cdf` is its integral and `quantile` the inverse
of `cdf`. -/
structure Lawful (d : LibDist) (q : ℝ → ℝ) : Prop where
  quantile : d.quantile = some q
  measurable_q : Measurable q
  measurable_prob : Measurable d.prob
  nonneg : ∀ x, 0 ≤ d.prob x
  integrable : Integrable d.prob
  isCdf : IsCdf d.cdf d.prob
  isQuantile : IsQuantile q d.cdf
  mem : ∀ x, 0 ≤ d.cdf x ∧ d.cdf x ≤ 1

theorem Lawful.dist_Ioc {d : LibDist} {q : ℝ → ℝ} (h : Lawful d q) {a b : ℝ} (hab : a ≤ b) :
    distOf d (Set.Ioc a b) = ENNReal.ofReal (d.cdf b - d.cdf a) := by
  rw [h.isCdf a b hab, intervalIntegral.integral_of_le hab, distOf, withDensity_apply _ measurableSet_Ioc,
    ofReal_integral_eq_lintegral_ofReal h.integrable.integrableOn (Filter.Eventually.of_forall h.nonneg)]

theorem Lawful.mono {d : LibDist} {q : ℝ → ℝ} (h : Lawful d q) {a b : ℝ} (hab : a ≤ b) : d.cdf a ≤ d.cdf b := by
  have := h.isCdf a b hab
  have h0 : 0 ≤ ∫ t in a..b, d.prob t := intervalIntegral.integral_nonneg hab fun t _ => h.nonneg t
  linarith

/-- One event, as a function of the number of the generator. -/
noncomputable def event (d : LibDist) (q : ℝ → ℝ) (lo hi u : ℝ) : ℝ := q (d.cdf lo + u * (d.cdf hi - d.cdf lo))

theorem analyticSample_eq {d : LibDist} {q : ℝ → ℝ} (h : Lawful d q) (lo hi : ℝ) (us : List ℝ) :
    analyticSample d lo hi us = .ok (us.map (event d q lo hi)) := by
  unfold analyticSample
  rw [h.quantile]
  simp only [List.map_map]
  rfl

theorem measurable_event {d : LibDist} {q : ℝ → ℝ} (h : Lawful d q) (lo hi : ℝ) : Measurable (event d q lo hi) := by
  have := h.measurable_q
  unfold event
  fun_prop

/-- The law of one event. -/
theorem event_law {d : LibDist} {q : ℝ → ℝ} (h : Lawful d q) (lo hi : ℝ) (hlt : d.cdf lo < d.cdf hi) :
    unitLaw.map (event d q lo hi) = (distOf d)[|Set.Ioc lo hi] := by
  exact Sample.inverse_law d.cdf q h.measurable_q (distOf d) (fun a b hab => h.dist_Ioc hab) (fun a b hab => h.mono hab) lo hi hlt
    fun p hp1 hp2 => h.isQuantile p ((h.mem lo).1.trans_lt hp1) (hp2.trans_le (h.mem hi).2)

/-- C276.  A sample of `n` events of a wrapped distribution between two limits consists of `n` independent events that follow the distribution
restricted to the limits. -/
theorem wrapped_sample_law {d : LibDist} {q : ℝ → ℝ} (h : Lawful d q) (lo hi : ℝ) (hlt : d.cdf lo < d.cdf hi) (n : ℕ) (B : Set (List ℝ))
    (hB : MeasurableSet {x : Fin n → ℝ | List.ofFn x ∈ B}) :
    Measure.pi (fun _ : Fin n => unitLaw) {us | ∃ l, analyticSample d lo hi (List.ofFn us) = .ok l ∧ l ∈ B} =
      Measure.pi (fun _ : Fin n => (distOf d)[|Set.Ioc lo hi]) {x | List.ofFn x ∈ B} := by
  simp only [analyticSample_eq h, Except.ok.injEq, exists_eq_left']
  exact Sample.independent_law _ (measurable_event h lo hi) _ (event_law h lo hi hlt) n B hB

/-- C276.  On several disjoint intervals, where all at once is not supported (dist_tfp.py:49): the events, whatever their order, are `n`
independent ones that follow the distribution restricted to the intervals together. -/
theorem wrapped_limits_law {d : LibDist} {q : ℝ → ℝ} (h : Lawful d q) {n m : ℕ} (lo hi : Fin m → ℝ) (hlt : ∀ i, d.cdf (lo i) < d.cdf (hi i))
    (hdisj : ∀ i j, i ≠ j → hi i ≤ lo j ∨ hi j ≤ lo i) {Ω : Type} [MeasurableSpace Ω] (τ : Measure Ω) [IsProbabilityMeasure τ]
    (counts : List ℝ → Ω → List ℕ) (is : Fin m → ℝ) (his : ∀ i, analyticIntegrate d (.fin (lo i)) (.fin (hi i)) = .ok (is i))
    (hcounts : Sample.IsMultinomial n (fun i => is i / ∑ j, is j) τ (counts (List.ofFn fun i => is i / ∑ j, is j)))
    (B : Set (List ℝ)) (hperm : ∀ l l', l.Perm l' → l ∈ B → l' ∈ B) (hB : ∀ k, MeasurableSet {x : Fin k → ℝ | List.ofFn x ∈ B}) :
    (τ.prod (Measure.infinitePi fun _ : Fin m × ℕ => unitLaw)) {ω | ∃ r,
      Sample.limitsSample (fun _ => .error .multipleLimitsNotImplemented)
        (fun i k => match analyticSample d (lo i) (hi i) ((List.range k).map fun j => ω.2 (i, j)) with
          | .ok l => .ok l
          | .error _ => .error .analyticNotImplemented)
        (.ok (List.ofFn is)) (fun fr => counts fr ω.1) n (List.finRange m) = .ok r ∧ r ∈ B} =
      Measure.pi (fun _ : Fin n => (distOf d)[|⋃ i, Set.Ioc (lo i) (hi i)]) {x | List.ofFn x ∈ B} := by
  have his' : ∀ i, is i = d.cdf (hi i) - d.cdf (lo i) := fun i => (Except.ok.inj (his i)).symm
  have hle : ∀ i, lo i ≤ hi i := fun i => by
    by_contra hc
    exact absurd (h.mono (not_le.1 hc).le) (not_le.2 (hlt i))
  rw [← Sample.limits_sample_law unitLaw (fun i => event d q (lo i) (hi i)) (fun i => measurable_event h _ _) (distOf d)
    (fun i => Set.Ioc (lo i) (hi i)) (fun i => measurableSet_Ioc) ?_ is (fun i => by rw [his']; exact sub_pos.2 (hlt i))
    (fun i => by rw [h.dist_Ioc (hle i), his']) (fun i => event_law h _ _ (hlt i)) τ counts hcounts B hperm hB]
  · simp only [analyticSample_eq h, List.map_map]
    rfl
  · intro i j hij
    rw [Function.onFun, Set.Ioc_disjoint_Ioc]
    rcases hdisj i j hij with hc | hc
    · exact (min_le_left _ _).trans (hc.trans (le_max_right _ _))
    · exact (min_le_right _ _).trans (hc.trans (le_max_left _ _))

open Classical in
/-- The uniform distribution on [0, 1] meets the hypotheses. -/
theorem uniform_lawful : Lawful ⟨libUniform 0 1, fun x => max 0 (min x 1), some fun p => p⟩ (fun p => p) := by
  have hprob : libUniform 0 1 = Set.indicator (Set.Icc 0 1) (fun _ => 1) := by
    funext x
    unfold libUniform
    by_cases hx : x ∈ Set.Icc (0 : ℝ) 1
    · rw [Set.indicator_of_mem hx, if_neg (by rintro (h | h) <;> linarith [hx.1, hx.2])]
      norm_num
    · rw [Set.indicator_of_notMem hx, if_pos]
      by_contra hc
      push Not at hc
      exact hx hc
  have hint : Integrable (libUniform 0 1) := by
    rw [hprob, integrable_indicator_iff measurableSet_Icc]
    exact integrableOn_const (by simp)
  refine ⟨rfl, measurable_id, ?_, ?_, hint, ?_, ?_, ?_⟩
  · simp only [hprob]
    exact measurable_const.indicator measurableSet_Icc
  · intro x
    simp only [hprob]
    exact Set.indicator_nonneg (fun _ _ => zero_le_one) x
  · intro a b hab
    rw [intervalIntegral.integral_of_le hab]
    simp only [hprob]
    rw [integral_indicator measurableSet_Icc, Measure.restrict_restrict measurableSet_Icc]
    simp only [integral_const, smul_eq_mul, mul_one, measureReal_restrict_apply_univ]
    have h1 : volume (Set.Icc (0 : ℝ) 1 ∩ Set.Ioc a b) = ENNReal.ofReal (max 0 (min b 1) - max 0 (min a 1)) := by
      have hae : (Set.Icc (0 : ℝ) 1 ∩ Set.Ioc a b : Set ℝ) =ᵐ[volume] (Set.Ioc 0 1 ∩ Set.Ioc a b : Set ℝ) :=
        Ioc_ae_eq_Icc.symm.inter (Filter.EventuallyEq.refl _ _)
      rw [measure_congr hae, Set.Ioc_inter_Ioc, Real.volume_Ioc]
      rcases le_total a 0 with h2 | h2 <;> rcases le_total b 0 with h3 | h3 <;> rcases le_total a 1 with h4 | h4 <;>
        rcases le_total b 1 with h5 | h5 <;> simp [h2, h3, h4, h5] <;>
        first | linarith | (rw [ENNReal.ofReal_of_nonpos, ENNReal.ofReal_of_nonpos] <;> linarith)
    rw [measureReal_def, h1, ENNReal.toReal_ofReal]
    have : min a 1 ≤ min b 1 := min_le_min_right _ hab
    exact sub_nonneg.2 (max_le_max_left _ this)
  · intro p p0 p1 t
    simp only [le_max_iff, le_min_iff, not_le.2 p0, false_or]
    exact ⟨fun h => ⟨h, p1.le⟩, fun h => h.1⟩
  · intro x
    exact ⟨le_max_left _ _, max_le zero_le_one (min_le_right _ _)⟩

/-- Two intervals of it and a multinomial draw. -/
example : (∀ i : Fin 2, max 0 (min (![(1 : ℝ) / 8, 1 / 2] i) 1) < max 0 (min (![(1 : ℝ) / 4, 3 / 4] i) 1)) ∧
    ∀ (n : ℕ) (fr : Fin 2 → ℝ), Sample.IsMultinomial n fr (Measure.pi fun _ : Fin n => Sample.labelLaw fr) Sample.countsOf := by
  refine ⟨?_, fun n fr c => ⟨Set.Finite.measurableSet (Set.toFinite _), rfl⟩⟩
  intro i
  fin_cases i <;> norm_num

end Zfit.Dist
