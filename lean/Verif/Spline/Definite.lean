import Verif.Spline.Cases
import Mathlib.Analysis.SpecialFunctions.ImproperIntegrals
import Mathlib.Analysis.SpecialFunctions.Log.Deriv
import Mathlib.Analysis.SpecialFunctions.Log.NegMulLog
import Mathlib.Analysis.Calculus.Deriv.MeanValue
import Mathlib.Analysis.SpecialFunctions.Trigonometric.Deriv
import Mathlib.Analysis.SpecialFunctions.Complex.LogBounds
import Mathlib.Analysis.SpecialFunctions.Integrals.Basic

/-! The interpolation is always possible: the kernels of order two and three are definite on the vectors that are orthogonal to the
linear functions (C90, C91). -/

namespace Zfit.Spline

open MeasureTheory Set Filter Topology

theorem cos_integral (a d : ℝ) (ha : 0 < a) :
    IntegrableOn (fun s => Real.exp (-a * s) * Real.cos (d * s)) (Ioi 0) ∧
      ∫ s in Ioi 0, Real.exp (-a * s) * Real.cos (d * s) = a / (a ^ 2 + d ^ 2) := by
  have hre : ((-a + d * Complex.I : ℂ)).re < 0 := by simp [ha]
  have h1 := integrableOn_exp_mul_complex_Ioi hre 0
  have h2 := integral_exp_mul_complex_Ioi hre 0
  have he : ∀ s : ℝ, (Complex.exp ((-a + d * Complex.I) * s)).re = Real.exp (-a * s) * Real.cos (d * s) := by
    intro s
    rw [Complex.exp_re]
    simp
  constructor
  · have := h1.re
    simpa only [he, RCLike.re_eq_complex_re, IntegrableOn] using this
  · have h3 := integral_re h1
    simp only [RCLike.re_eq_complex_re, he] at h3
    rw [h3, h2]
    simp only [Complex.ofReal_zero, mul_zero, Complex.exp_zero]
    rw [neg_div, Complex.neg_re, one_div, Complex.inv_re, Complex.normSq_apply]
    simp
    rw [neg_div, neg_neg]
    ring_nf

variable {ι : Type} [Fintype ι]

/-- The Cauchy kernel is not negative. -/
theorem cauchy_psd (w c : ι → ℝ) (l : ℝ) (hl : 0 < l) : 0 ≤ ∑ i, ∑ j, w i * w j / (l + (c i - c j) ^ 2) := by
  obtain ⟨a, ha, rfl⟩ : ∃ a, 0 < a ∧ l = a ^ 2 := ⟨Real.sqrt l, Real.sqrt_pos.2 hl, (Real.sq_sqrt hl.le).symm⟩
  have h1 : ∑ i, ∑ j, w i * w j / (a ^ 2 + (c i - c j) ^ 2) =
      (1 / a) * ∫ s in Ioi 0, ∑ i, ∑ j, w i * w j * (Real.exp (-a * s) * Real.cos ((c i - c j) * s)) := by
    rw [integral_finsetSum _ fun i _ => integrable_finsetSum _ fun j _ => (cos_integral a (c i - c j) ha).1.const_mul _, Finset.mul_sum]
    refine Finset.sum_congr rfl fun i _ => ?_
    rw [integral_finsetSum _ fun j _ => (cos_integral a (c i - c j) ha).1.const_mul _, Finset.mul_sum]
    refine Finset.sum_congr rfl fun j _ => ?_
    rw [integral_const_mul, (cos_integral a (c i - c j) ha).2]
    have : a ^ 2 + (c i - c j) ^ 2 ≠ 0 := by positivity
    field_simp
  rw [h1]
  refine mul_nonneg (by positivity) (integral_nonneg fun s => ?_)
  have h2 : ∑ i, ∑ j, w i * w j * (Real.exp (-a * s) * Real.cos ((c i - c j) * s)) =
      Real.exp (-a * s) * ((∑ i, w i * Real.cos (c i * s)) ^ 2 + (∑ i, w i * Real.sin (c i * s)) ^ 2) := by
    rw [sq, sq, Finset.sum_mul_sum, Finset.sum_mul_sum, ← Finset.sum_add_distrib, Finset.mul_sum]
    refine Finset.sum_congr rfl fun i _ => ?_
    rw [← Finset.sum_add_distrib, Finset.mul_sum]
    refine Finset.sum_congr rfl fun j _ => ?_
    rw [sub_mul, Real.cos_sub]
    ring
  simp only [Pi.zero_apply]
  rw [h2]
  positivity

/-- The form of the shifted kernel `(l + t) log (l + t)`. -/
noncomputable def form (w c : ι → ℝ) (l : ℝ) : ℝ := ∑ i, ∑ j, w i * w j * ((l + (c i - c j) ^ 2) * Real.log (l + (c i - c j) ^ 2))

noncomputable def form1 (w c : ι → ℝ) (l : ℝ) : ℝ := ∑ i, ∑ j, w i * w j * (Real.log (l + (c i - c j) ^ 2) + 1)

noncomputable def form2 (w c : ι → ℝ) (l : ℝ) : ℝ := ∑ i, ∑ j, w i * w j / (l + (c i - c j) ^ 2)

theorem form_deriv (w c : ι → ℝ) (l : ℝ) (hl : 0 < l) : HasDerivAt (form w c) (form1 w c l) l := by
  unfold form form1
  refine HasDerivAt.fun_sum fun i _ => HasDerivAt.fun_sum fun j _ => HasDerivAt.const_mul _ ?_
  have hp : l + (c i - c j) ^ 2 ≠ 0 := by positivity
  have h1 : HasDerivAt (fun l : ℝ => l + (c i - c j) ^ 2) 1 l := (hasDerivAt_id l).add_const _
  have := (Real.hasDerivAt_mul_log hp).comp l h1
  simpa [Function.comp_def] using this

theorem form1_deriv (w c : ι → ℝ) (l : ℝ) (hl : 0 < l) : HasDerivAt (form1 w c) (form2 w c l) l := by
  unfold form1 form2
  refine HasDerivAt.fun_sum fun i _ => HasDerivAt.fun_sum fun j _ => ?_
  rw [div_eq_mul_inv]
  refine HasDerivAt.const_mul _ ?_
  have hp : l + (c i - c j) ^ 2 ≠ 0 := by positivity
  have h1 : HasDerivAt (fun l : ℝ => l + (c i - c j) ^ 2) 1 l := (hasDerivAt_id l).add_const _
  have := ((Real.hasDerivAt_log hp).comp l h1).add_const 1
  simpa [Function.comp_def] using this

theorem sum_one (w : ι → ℝ) (h0 : ∑ i, w i = 0) (k : ℝ) : ∑ i, ∑ j, w i * w j * k = 0 := by
  have : ∑ i, ∑ j, w i * w j * k = (∑ i, w i) * (∑ j, w j) * k := by
    rw [Finset.sum_mul_sum, Finset.sum_mul]
    exact Finset.sum_congr rfl fun i _ => by rw [Finset.sum_mul]
  rw [this, h0]
  ring

theorem sum_sq (w c : ι → ℝ) (h0 : ∑ i, w i = 0) (h1 : ∑ i, w i * c i = 0) (k : ℝ) : ∑ i, ∑ j, w i * w j * ((c i - c j) ^ 2 * k) = 0 := by
  have : ∑ i, ∑ j, w i * w j * ((c i - c j) ^ 2 * k) =
      k * ((∑ i, w i * c i ^ 2) * (∑ j, w j) - 2 * ((∑ i, w i * c i) * ∑ j, w j * c j) + (∑ i, w i) * ∑ j, w j * c j ^ 2) := by
    simp only [Finset.sum_mul_sum]
    simp only [Finset.mul_sum, ← Finset.sum_add_distrib, ← Finset.sum_sub_distrib]
    refine Finset.sum_congr rfl fun i _ => Finset.sum_congr rfl fun j _ => ?_
    ring
  rw [this, h0, h1]
  ring

theorem form1_tendsto (w c : ι → ℝ) (h0 : ∑ i, w i = 0) : Tendsto (form1 w c) atTop (𝓝 0) := by
  have h : ∀ i j, Tendsto (fun l : ℝ => w i * w j * Real.log (1 + (c i - c j) ^ 2 / l)) atTop (𝓝 0) := by
    intro i j
    have h1 : Tendsto (fun l : ℝ => 1 + (c i - c j) ^ 2 / l) atTop (𝓝 (1 + 0)) := (tendsto_const_nhds.div_atTop tendsto_id).const_add 1
    rw [add_zero] at h1
    have h2 := ((Real.continuousAt_log one_ne_zero).tendsto.comp h1).const_mul (w i * w j)
    simpa using h2
  have hs : Tendsto (fun l : ℝ => ∑ i, ∑ j, w i * w j * Real.log (1 + (c i - c j) ^ 2 / l)) atTop (𝓝 (∑ i : ι, ∑ j : ι, (0 : ℝ))) :=
    tendsto_finsetSum _ fun i _ => tendsto_finsetSum _ fun j _ => h i j
  simp only [Finset.sum_const_zero] at hs
  refine hs.congr' ?_
  filter_upwards [eventually_gt_atTop 0] with l hl
  unfold form1
  have e : ∑ i, ∑ j, w i * w j * (Real.log (l + (c i - c j) ^ 2) + 1) =
      (∑ i, ∑ j, w i * w j * Real.log (1 + (c i - c j) ^ 2 / l)) + ∑ i, ∑ j, w i * w j * (Real.log l + 1) := by
    simp only [← Finset.sum_add_distrib]
    refine Finset.sum_congr rfl fun i _ => Finset.sum_congr rfl fun j _ => ?_
    have : l + (c i - c j) ^ 2 = l * (1 + (c i - c j) ^ 2 / l) := by field_simp
    rw [this, Real.log_mul hl.ne' (by positivity)]
    ring
  rw [e, sum_one w h0, add_zero]

theorem form_tendsto (w c : ι → ℝ) (h0 : ∑ i, w i = 0) (h1 : ∑ i, w i * c i = 0) : Tendsto (form w c) atTop (𝓝 0) := by
  have h : ∀ i j, Tendsto (fun l : ℝ => w i * w j * (l * Real.log (1 + (c i - c j) ^ 2 / l) + (c i - c j) ^ 2 * Real.log (1 + (c i - c j) ^ 2 / l)))
      atTop (𝓝 (w i * w j * ((c i - c j) ^ 2 * 1))) := by
    intro i j
    have h1 : Tendsto (fun l : ℝ => 1 + (c i - c j) ^ 2 / l) atTop (𝓝 (1 + 0)) := (tendsto_const_nhds.div_atTop tendsto_id).const_add 1
    rw [add_zero] at h1
    have h2 := ((Real.continuousAt_log one_ne_zero).tendsto.comp h1).const_mul ((c i - c j) ^ 2)
    have h3 := Real.tendsto_mul_log_one_add_div_atTop ((c i - c j) ^ 2)
    have := (h3.add h2).const_mul (w i * w j)
    simpa using this
  have hs := tendsto_finsetSum Finset.univ fun i (_ : i ∈ Finset.univ) => tendsto_finsetSum Finset.univ fun j (_ : j ∈ Finset.univ) => h i j
  rw [sum_sq w c h0 h1 1] at hs
  refine hs.congr' ?_
  filter_upwards [eventually_gt_atTop 0] with l hl
  unfold form
  have e : ∑ i, ∑ j, w i * w j * ((l + (c i - c j) ^ 2) * Real.log (l + (c i - c j) ^ 2)) =
      (∑ i, ∑ j, w i * w j * (l * Real.log (1 + (c i - c j) ^ 2 / l) + (c i - c j) ^ 2 * Real.log (1 + (c i - c j) ^ 2 / l))) +
        (∑ i, ∑ j, w i * w j * (l * Real.log l)) + ∑ i, ∑ j, w i * w j * ((c i - c j) ^ 2 * Real.log l) := by
    simp only [← Finset.sum_add_distrib]
    refine Finset.sum_congr rfl fun i _ => Finset.sum_congr rfl fun j _ => ?_
    have : Real.log (l + (c i - c j) ^ 2) = Real.log l + Real.log (1 + (c i - c j) ^ 2 / l) := by
      rw [← Real.log_mul hl.ne' (by positivity)]
      congr 1
      field_simp
    rw [this]
    ring
  rw [e, sum_one w h0, sum_sq w c h0 h1, add_zero, add_zero]

/-- The thin-plate kernel is positive on vectors orthogonal to the linear functions. -/
theorem form_pos (w c : ι → ℝ) (hc : Function.Injective c) (h0 : ∑ i, w i = 0) (h1 : ∑ i, w i * c i = 0) (hw : w ≠ 0) : 0 < form w c 0 := by
  have hcont : ContinuousOn (form w c) (Ici 0) := by
    apply Continuous.continuousOn
    unfold form
    refine continuous_finsetSum _ fun i _ => continuous_finsetSum _ fun j _ => continuous_const.mul ?_
    exact Real.continuous_mul_log.comp (continuous_id.add continuous_const)
  have hmono1 : MonotoneOn (form1 w c) (Ioi 0) := by
    apply monotoneOn_of_deriv_nonneg (convex_Ioi 0)
    · exact fun x hx => (form1_deriv w c x hx).continuousAt.continuousWithinAt
    · rw [interior_Ioi]
      exact fun x hx => (form1_deriv w c x hx).differentiableAt.differentiableWithinAt
    · rw [interior_Ioi]
      intro x hx
      rw [(form1_deriv w c x hx).deriv]
      exact cauchy_psd w c x hx
  have hneg : ∀ l, 0 < l → form1 w c l ≤ 0 := by
    intro l hl
    refine ge_of_tendsto (form1_tendsto w c h0) ?_
    filter_upwards [eventually_ge_atTop l] with m hm
    exact hmono1 hl (lt_of_lt_of_le hl hm) hm
  have hanti : AntitoneOn (form w c) (Ici 0) := by
    apply antitoneOn_of_deriv_nonpos (convex_Ici 0) hcont
    · rw [interior_Ici]
      exact fun x hx => (form_deriv w c x hx).differentiableAt.differentiableWithinAt
    · rw [interior_Ici]
      intro x hx
      rw [(form_deriv w c x hx).deriv]
      exact hneg x hx
  have hpos : ∀ l, 0 ≤ l → 0 ≤ form w c l := by
    intro l hl
    refine le_of_tendsto (form_tendsto w c h0 h1) ?_
    filter_upwards [eventually_ge_atTop l] with m hm
    exact hanti hl (le_trans hl hm) hm
  by_contra hcon
  have hz : ∀ l, 0 ≤ l → form w c l = 0 := fun l hl =>
    le_antisymm ((hanti (le_refl (0 : ℝ)) hl hl).trans (not_lt.1 hcon)) (hpos l hl)
  have hz1 : ∀ l, 0 < l → form1 w c l = 0 := by
    intro l hl
    have : form w c =ᶠ[𝓝 l] fun _ => 0 := by
      filter_upwards [lt_mem_nhds hl] with m hm
      exact hz m (le_of_lt hm)
    exact (form_deriv w c l hl).unique ((hasDerivAt_const l (0 : ℝ)).congr_of_eventuallyEq this)
  have hz2 : ∀ l, 0 < l → form2 w c l = 0 := by
    intro l hl
    have : form1 w c =ᶠ[𝓝 l] fun _ => 0 := by
      filter_upwards [lt_mem_nhds hl] with m hm
      exact hz1 m hm
    exact (form1_deriv w c l hl).unique ((hasDerivAt_const l (0 : ℝ)).congr_of_eventuallyEq this)
  have hlim : Tendsto (fun l : ℝ => ∑ i, ∑ j, w i * w j * (l / (l + (c i - c j) ^ 2))) (𝓝[>] 0) (𝓝 (∑ i, w i ^ 2)) := by
    classical
    have hs : Tendsto (fun l : ℝ => ∑ i, ∑ j, w i * w j * (l / (l + (c i - c j) ^ 2))) (𝓝[>] 0) (𝓝 (∑ i, ∑ j, w i * w j * if i = j then 1 else 0)) := by
      refine tendsto_finsetSum _ fun i _ => tendsto_finsetSum _ fun j _ => Tendsto.const_mul _ ?_
      by_cases hij : i = j
      · rw [if_pos hij, hij]
        refine tendsto_const_nhds.congr' ?_
        filter_upwards [self_mem_nhdsWithin] with l hl
        have : l ≠ 0 := ne_of_gt hl
        simp [this]
      · rw [if_neg hij]
        have hd : c i - c j ≠ 0 := sub_ne_zero.2 fun h => hij (hc h)
        have hc' : ContinuousAt (fun l : ℝ => l / (l + (c i - c j) ^ 2)) 0 := by
          apply ContinuousAt.div continuousAt_id (continuousAt_id.add continuousAt_const)
          simpa using hd
        have := hc'.tendsto
        simp only [zero_div] at this
        exact this.mono_left nhdsWithin_le_nhds
    have e : ∑ i, ∑ j, w i * w j * (if i = j then (1 : ℝ) else 0) = ∑ i, w i ^ 2 := by
      refine Finset.sum_congr rfl fun i _ => ?_
      simp [sq]
    rwa [e] at hs
  have hz3 : (∑ i, w i ^ 2) = 0 := by
    refine tendsto_nhds_unique hlim ?_
    refine tendsto_const_nhds.congr' ?_
    filter_upwards [self_mem_nhdsWithin] with l hl
    have := hz2 l hl
    unfold form2 at this
    have h2 := congrArg (fun x => l * x) this
    simp only [mul_zero, Finset.mul_sum] at h2
    rw [← h2]
    exact Finset.sum_congr rfl fun i _ => Finset.sum_congr rfl fun j _ => by ring
  apply hw
  funext i
  have := (Finset.sum_eq_zero_iff_of_nonneg fun i _ => sq_nonneg (w i)).1 hz3 i (Finset.mem_univ i)
  simpa using this

/-! ### Order three -/

/-- The kernel of the cubic spline as an integral of squares. -/
theorem cubic_integral (m M x y : ℝ) (hy : m ≤ y) (hyx : y ≤ x) (hx : x ≤ M) :
    ∫ t in m..M, max (x - t) 0 * max (y - t) 0 = (x - y) * (y - m) ^ 2 / 2 + (y - m) ^ 3 / 3 := by
  have hi : ∀ a b, IntervalIntegrable (fun t => max (x - t) 0 * max (y - t) 0) volume a b := fun a b => by
    apply Continuous.intervalIntegrable
    fun_prop
  rw [← intervalIntegral.integral_add_adjacent_intervals (hi m y) (hi y M)]
  have h1 : ∫ t in y..M, max (x - t) 0 * max (y - t) 0 = ∫ t in y..M, (0 : ℝ) := by
    apply intervalIntegral.integral_congr
    intro t ht
    rw [Set.uIcc_of_le (hyx.trans hx)] at ht
    simp only
    rw [max_eq_right (sub_nonpos.2 ht.1), mul_zero]
  have h2 : ∫ t in m..y, max (x - t) 0 * max (y - t) 0 = ∫ t in m..y, (x - t) * (y - t) := by
    apply intervalIntegral.integral_congr
    intro t ht
    rw [Set.uIcc_of_le hy] at ht
    simp only
    rw [max_eq_left (sub_nonneg.2 ht.2), max_eq_left (sub_nonneg.2 (ht.2.trans hyx))]
  rw [h1, h2, intervalIntegral.integral_zero, add_zero]
  have h3 : ∀ t ∈ Set.uIcc m y, HasDerivAt (fun t : ℝ => x * y * t - (x + y) * t ^ 2 / 2 + t ^ 3 / 3) ((x - t) * (y - t)) t := by
    intro t _
    have := (((hasDerivAt_id t).const_mul (x * y)).sub ((((hasDerivAt_pow 2 t).const_mul (x + y))).div_const 2)).add ((hasDerivAt_pow 3 t).div_const 3)
    refine this.congr_deriv ?_
    push_cast
    ring
  rw [intervalIntegral.integral_eq_sub_of_hasDerivAt h3 (by apply Continuous.intervalIntegrable; fun_prop)]
  ring

theorem cubic_kernel (m M x y : ℝ) (hx : m ≤ x) (hx' : x ≤ M) (hy : m ≤ y) (hy' : y ≤ M) :
    |x - y| ^ 3 = 12 * (∫ t in m..M, max (x - t) 0 * max (y - t) 0) +
      ((x - m) ^ 3 - 3 * (x - m) ^ 2 * (y - m) - 3 * (x - m) * (y - m) ^ 2 + (y - m) ^ 3) := by
  rcases le_total y x with h | h
  · rw [cubic_integral m M x y hy h hx', abs_of_nonneg (sub_nonneg.2 h)]
    ring
  · have e : (fun t => max (x - t) 0 * max (y - t) 0) = fun t => max (y - t) 0 * max (x - t) 0 := by
      funext t
      ring
    rw [e, cubic_integral m M y x hx h hy', abs_of_nonpos (sub_nonpos.2 h)]
    ring

/-- The cubic kernel is not negative on vectors orthogonal to the linear functions. -/
theorem cubic_psd (w c : ι → ℝ) (h0 : ∑ i, w i = 0) (h1 : ∑ i, w i * c i = 0) : 0 ≤ ∑ i, ∑ j, w i * w j * |c i - c j| ^ 3 := by
  obtain ⟨m, hm⟩ : ∃ m, ∀ i, m ≤ c i := ⟨-∑ i, |c i|, fun i => by
    have := Finset.single_le_sum (f := fun i => |c i|) (fun i _ => abs_nonneg _) (Finset.mem_univ i)
    have := neg_abs_le (c i)
    linarith⟩
  obtain ⟨M, hM⟩ : ∃ M, ∀ i, c i ≤ M := ⟨∑ i, |c i|, fun i => by
    have := Finset.single_le_sum (f := fun i => |c i|) (fun i _ => abs_nonneg _) (Finset.mem_univ i)
    have := le_abs_self (c i)
    linarith⟩
  have hcong : ∑ i, ∑ j, w i * w j * |c i - c j| ^ 3 =
      12 * (∑ i, ∑ j, w i * w j * ∫ t in m..M, max (c i - t) 0 * max (c j - t) 0) +
        ∑ i, ∑ j, w i * w j * ((c i - m) ^ 3 - 3 * (c i - m) ^ 2 * (c j - m) - 3 * (c i - m) * (c j - m) ^ 2 + (c j - m) ^ 3) := by
    simp only [Finset.mul_sum, ← Finset.sum_add_distrib]
    refine Finset.sum_congr rfl fun i _ => Finset.sum_congr rfl fun j _ => ?_
    rw [cubic_kernel m M (c i) (c j) (hm i) (hM i) (hm j) (hM j)]
    ring
  have hlin : ∑ i, w i * (c i - m) = 0 := by
    have : ∑ i, w i * (c i - m) = (∑ i, w i * c i) - m * ∑ i, w i := by
      rw [Finset.mul_sum, ← Finset.sum_sub_distrib]
      exact Finset.sum_congr rfl fun i _ => by ring
    rw [this, h0, h1]
    ring
  have hpoly : ∑ i, ∑ j, w i * w j * ((c i - m) ^ 3 - 3 * (c i - m) ^ 2 * (c j - m) - 3 * (c i - m) * (c j - m) ^ 2 + (c j - m) ^ 3) = 0 := by
    have : ∑ i, ∑ j, w i * w j * ((c i - m) ^ 3 - 3 * (c i - m) ^ 2 * (c j - m) - 3 * (c i - m) * (c j - m) ^ 2 + (c j - m) ^ 3) =
        (∑ i, w i * (c i - m) ^ 3) * (∑ j, w j) - 3 * ((∑ i, w i * (c i - m) ^ 2) * ∑ j, w j * (c j - m)) -
          3 * ((∑ i, w i * (c i - m)) * ∑ j, w j * (c j - m) ^ 2) + (∑ i, w i) * ∑ j, w j * (c j - m) ^ 3 := by
      simp only [Finset.sum_mul_sum]
      simp only [Finset.mul_sum, ← Finset.sum_add_distrib, ← Finset.sum_sub_distrib]
      refine Finset.sum_congr rfl fun i _ => Finset.sum_congr rfl fun j _ => ?_
      ring
    rw [this, h0, hlin]
    ring
  have hint : ∑ i, ∑ j, w i * w j * (∫ t in m..M, max (c i - t) 0 * max (c j - t) 0) = ∫ t in m..M, (∑ i, w i * max (c i - t) 0) ^ 2 := by
    have e : ∀ t : ℝ, (∑ i, w i * max (c i - t) 0) ^ 2 = ∑ i, ∑ j, w i * w j * (max (c i - t) 0 * max (c j - t) 0) := by
      intro t
      rw [sq, Finset.sum_mul_sum]
      exact Finset.sum_congr rfl fun i _ => Finset.sum_congr rfl fun j _ => by ring
    simp only [e]
    have hii : ∀ i j, IntervalIntegrable (fun t => w i * w j * (max (c i - t) 0 * max (c j - t) 0)) volume m M := fun i j => by
      apply Continuous.intervalIntegrable
      fun_prop
    rw [intervalIntegral.integral_finset_sum fun i _ => by
      apply Continuous.intervalIntegrable
      fun_prop]
    refine Finset.sum_congr rfl fun i _ => ?_
    rw [intervalIntegral.integral_finset_sum fun j _ => hii i j]
    refine Finset.sum_congr rfl fun j _ => ?_
    rw [intervalIntegral.integral_const_mul]
  rw [hcong, hpoly, hint, add_zero]
  have hmM : ∀ t, 0 ≤ (∑ i, w i * max (c i - t) 0) ^ 2 := fun t => sq_nonneg _
  by_cases hne : Nonempty ι
  · obtain ⟨i⟩ := hne
    exact mul_nonneg (by norm_num) (intervalIntegral.integral_nonneg ((hm i).trans (hM i)) fun t _ => hmM t)
  · have : ∀ t, (∑ i, w i * max (c i - t) 0) ^ 2 = 0 := by
      intro t
      haveI := not_nonempty_iff.1 hne
      simp
    simp [this]

/-! ### The system can be solved -/

variable [DecidableEq ι]

open Matrix in
/-- If the kernel is not zero on the orthogonal vectors, the system can be solved. -/
theorem regular_of_form (c : ι → Unit → ℝ) (order : ℕ) (i0 i1 : ι) (hne : c i0 () ≠ c i1 ())
    (hq : ∀ w : ι → ℝ, ∑ i, w i = 0 → ∑ i, w i * c i () = 0 → (∑ i, ∑ j, w i * w j * phi order ((c i () - c j ()) ^ 2)) = 0 → w = 0) :
    IsUnit (lhs c order 0).det := by
  apply isUnit_lhs_of
  intro w v h1 h2
  have e1 := congrFun h2 (Sum.inl ())
  have e2 := congrFun h2 (Sum.inr ())
  simp only [matrixB, Matrix.mulVec, dotProduct, Matrix.transpose_apply, Matrix.of_apply, Sum.elim_inl, Sum.elim_inr, Pi.zero_apply, one_mul] at e1 e2
  have e1' : ∑ i, w i * c i () = 0 := by
    rw [← e1]
    exact Finset.sum_congr rfl fun i _ => mul_comm _ _
  have hrow : ∀ i, (∑ j, phi order ((c i () - c j ()) ^ 2) * w j) + (c i () * v (Sum.inl ()) + v (Sum.inr ())) = 0 := by
    intro i
    have := congrFun h1 i
    simpa [matrixA, matrixB, Matrix.mulVec, dotProduct, sqDist_eq] using this
  have hw : w = 0 := by
    apply hq w e2 e1'
    have hs : ∑ i, w i * ((∑ j, phi order ((c i () - c j ()) ^ 2) * w j) + (c i () * v (Sum.inl ()) + v (Sum.inr ()))) = 0 :=
      Finset.sum_eq_zero fun i _ => by rw [hrow i, mul_zero]
    have hs2 : ∑ i, w i * ((∑ j, phi order ((c i () - c j ()) ^ 2) * w j) + (c i () * v (Sum.inl ()) + v (Sum.inr ()))) =
        (∑ i, ∑ j, w i * w j * phi order ((c i () - c j ()) ^ 2)) + v (Sum.inl ()) * (∑ i, w i * c i ()) + v (Sum.inr ()) * ∑ i, w i := by
      simp only [Finset.mul_sum, ← Finset.sum_add_distrib]
      refine Finset.sum_congr rfl fun i _ => ?_
      rw [mul_add, Finset.mul_sum]
      have : ∀ j, w i * (phi order ((c i () - c j ()) ^ 2) * w j) = w i * w j * phi order ((c i () - c j ()) ^ 2) := fun j => by ring
      simp only [this]
      ring
    rw [hs2, e1', e2] at hs
    simpa using hs
  refine ⟨hw, ?_⟩
  have f0 := hrow i0
  have f1 := hrow i1
  simp only [hw, Pi.zero_apply, mul_zero, Finset.sum_const_zero, zero_add] at f0 f1
  have v0 : v (Sum.inl ()) = 0 := by
    have : (c i0 () - c i1 ()) * v (Sum.inl ()) = 0 := by linear_combination f0 - f1
    exact (mul_eq_zero.1 this).resolve_left (sub_ne_zero.2 hne)
  rw [v0] at f0
  funext k
  rcases k with ⟨⟩ | ⟨⟩
  · exact v0
  · simpa using f0

/-- Points at least `1e-5` apart, two or more, can be interpolated with order two. -/
theorem regular_order_two (c : ι → Unit → ℝ) (i0 i1 : ι) (h01 : i0 ≠ i1) (hsep : ∀ i j, i ≠ j → 1 / 10 ^ 5 ≤ |c i () - c j ()|) :
    IsUnit (lhs c 2 0).det := by
  have hinj : Function.Injective fun i => c i () := by
    intro i j hij
    by_contra hne
    have := hsep i j hne
    simp only at hij
    rw [hij, sub_self, abs_zero] at this
    norm_num at this
  refine regular_of_form c 2 i0 i1 (fun h => h01 (hinj h)) fun w h0 h1 hq => ?_
  by_contra hw
  have hp := form_pos w (fun i => c i ()) hinj h0 h1 hw
  have he : ∀ i j, phi 2 ((c i () - c j ()) ^ 2) = 1 / 2 * ((0 + (c i () - c j ()) ^ 2) * Real.log (0 + (c i () - c j ()) ^ 2)) := by
    intro i j
    rw [zero_add]
    by_cases hij : i = j
    · subst hij
      simp [phi]
    · have h2 : eps ≤ (c i () - c j ()) ^ 2 := by
        have : eps = (1 / 10 ^ 5 : ℝ) ^ 2 := by unfold eps; norm_num
        rw [this, ← sq_abs (c i () - c j ())]
        exact pow_le_pow_left₀ (by norm_num) (hsep i j hij) 2
      rw [phi2_of _ h2]
      ring
  have hf : ∑ i, ∑ j, w i * w j * phi 2 ((c i () - c j ()) ^ 2) = 1 / 2 * form w (fun i => c i ()) 0 := by
    unfold form
    simp only [Finset.mul_sum]
    refine Finset.sum_congr rfl fun i _ => Finset.sum_congr rfl fun j _ => ?_
    rw [he]
    ring
  rw [hf] at hq
  linarith

/-- Points at least `1e-5` apart, two or more, can be interpolated with order three. -/
theorem regular_order_three (c : ι → Unit → ℝ) (i0 i1 : ι) (h01 : i0 ≠ i1) (hsep : ∀ i j, i ≠ j → 1 / 10 ^ 5 ≤ |c i () - c j ()|) :
    IsUnit (lhs c 3 0).det := by
  have hne : c i0 () ≠ c i1 () := by
    intro h
    have := hsep i0 i1 h01
    rw [h, sub_self, abs_zero] at this
    norm_num at this
  refine regular_of_form c 3 i0 i1 hne fun w h0 h1 hq => ?_
  have hpsd := cubic_psd w (fun i => c i ()) h0 h1
  obtain ⟨d, hd⟩ : ∃ d, d = phi 3 0 := ⟨_, rfl⟩
  have hdpos : 0 < d := by
    rw [hd]
    have : phi 3 0 = max 0 eps ^ (0.5 * (3 : ℕ) : ℝ) := by simp [phi]
    rw [this]
    exact Real.rpow_pos_of_pos (lt_max_of_lt_right eps_pos) _
  have he : ∀ i j, phi 3 ((c i () - c j ()) ^ 2) = |c i () - c j ()| ^ 3 + if i = j then d else 0 := by
    intro i j
    by_cases hij : i = j
    · subst hij
      simp [hd]
    · rw [if_neg hij, add_zero, ← sq_abs (c i () - c j ()), phi_documented 3 (by norm_num) _ (hsep i j hij)]
      simp [radial]
  have hs : ∑ i, ∑ j, w i * w j * phi 3 ((c i () - c j ()) ^ 2) = (∑ i, ∑ j, w i * w j * |c i () - c j ()| ^ 3) + d * ∑ i, w i ^ 2 := by
    have : d * ∑ i, w i ^ 2 = ∑ i, ∑ j, w i * w j * (if i = j then d else 0) := by
      rw [Finset.mul_sum]
      refine Finset.sum_congr rfl fun i _ => ?_
      simp
      ring
    rw [this]
    simp only [← Finset.sum_add_distrib, he, mul_add]
  rw [hs] at hq
  have hw2 : 0 ≤ ∑ i, w i ^ 2 := Finset.sum_nonneg fun i _ => sq_nonneg _
  have hz : ∑ i, w i ^ 2 = 0 := by
    have := mul_nonneg hdpos.le hw2
    have h2 : d * ∑ i, w i ^ 2 = 0 := by linarith
    exact (mul_eq_zero.1 h2).resolve_left hdpos.ne'
  funext i
  have := (Finset.sum_eq_zero_iff_of_nonneg fun i _ => sq_nonneg (w i)).1 hz i (Finset.mem_univ i)
  simpa using this

/-- C90. Two or more templates at `alpha` values at least `1e-5` apart can always be interpolated. -/
theorem regular_templates {α : Type} (hists : List (ℝ × α)) (h2 : 2 ≤ hists.length) (hsep : hists.Pairwise fun p q => 1 / 10 ^ 5 ≤ |p.1 - q.1|) :
    Regular hists := by
  refine regular_order_two (points hists) ⟨0, by omega⟩ ⟨1, by omega⟩ (by simp) fun i j hij => ?_
  rcases lt_or_gt_of_ne hij with h | h
  · exact List.pairwise_iff_get.1 hsep i j h
  · rw [abs_sub_comm]
    exact List.pairwise_iff_get.1 hsep j i h

end Zfit.Spline
