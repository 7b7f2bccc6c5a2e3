import Verif.Phys.Lemmas
import Mathlib.Tactic.NormNum

/-! Properties of the Crystal Ball family and of the Gaussian with exponential tails (C73, C74).

The theorems speak of `crystalball x mu sigma alpha n`, the value of the (unnormalised) pdf at `x`, of
`crystalballIntegral mu sigma alpha n lower upper`, the registered analytic integral, and of Mathlib's interval integral
`∫ x in lower..upper, …`. -/

namespace Zfit.Phys

open intervalIntegral

/-! ## C73: the analytic integral is the integral -/

/-- C73. For a width `0 < sigma`, a transition point `alpha ≠ 0` of either sign and a positive tail exponent `n` that is
one or at least `1e-5` away from one, the analytic integral of the Crystal Ball over any interval is its integral.
Missing from the full statement: exponents closer than `1e-5` to one, where the code takes the formula of `n = 1`
(`crystalball_integral_near_one_violated`). -/
theorem crystalball_integral_partial (mu sigma alpha n lower upper : ℝ) (hs : 0 < sigma) (ha : alpha ≠ 0) (hn : 0 < n)
    (hn1 : n = 1 ∨ 1e-05 ≤ |n - 1|) (hl : lower ≤ upper) :
    crystalballIntegral mu sigma alpha n lower upper = ∫ x in lower..upper, crystalball x mu sigma alpha n := by
  have hA : 0 < |alpha| := abs_pos.2 ha
  simp only [crystalball_eq _ mu sigma alpha n ha hn]
  rw [reduced_integral (glue |alpha| (cbTail |alpha| n) core) mu sigma alpha lower upper hs ha]
  have hle := reduced_le mu sigma alpha lower upper hs hl
  simp only [crystalballIntegral]
  generalize (if alpha < 0 then -((upper - mu) / |sigma|) else (lower - mu) / |sigma|) = tmin at hle ⊢
  generalize (if alpha < 0 then -((lower - mu) / |sigma|) else (upper - mu) / |sigma|) = tmax at hle ⊢
  rw [abs_of_pos hs]
  generalize |alpha| = A at hA ⊢
  have hj := cbTail_join A n hA hn
  by_cases h1 : -A ≤ tmin
  · rw [if_pos h1, glue_integral_right A _ _ _ _ hle h1]
    unfold core
    rw [gauss_integral]
    ring
  · rw [if_neg (show ¬ tmin ≥ -A from h1)]
    have h1' : tmin ≤ -A := (not_le.1 h1).le
    have hpmin := cbTail_arg_pos hA hn h1'
    rw [if_pos (show n / A - A - tmin > 0 from hpmin)]
    by_cases h2 : tmax ≤ -A
    · have hpmax := cbTail_arg_pos hA hn h2
      rw [if_pos h2, if_pos (show n / A - A - tmax > 0 from hpmax), glue_integral_left A _ _ _ _ hle h2 hj]
      unfold cbTail
      rw [integral_const_mul]
      rcases hn1 with rfl | hn1
      · rw [if_pos (by norm_num), tail_integral_one _ _ _ hpmin hpmax]
        ring
      · have : n ≠ 1 := by rintro rfl; norm_num at hn1
        rw [if_neg (not_lt.2 hn1), tail_integral _ _ _ _ this hpmin hpmax]
        ring
    · rw [if_neg h2, glue_integral_mid A _ _ _ _ h1' (not_le.1 h2).le hj (cb_glue_continuous A n hA hn)]
      have hg : ∫ t in (-A)..tmax, core t =
          Real.sqrt (Real.pi / 2) * (erf (tmax / Real.sqrt 2) - erf (-A / Real.sqrt 2)) := gauss_integral (-A) tmax
      rw [hg]
      rcases hn1 with rfl | hn1
      · rw [if_pos (by norm_num)]
        unfold cbTail
        rw [integral_const_mul, tail_integral_one _ _ _ hpmin (cbTail_arg_pos hA hn le_rfl),
          show 1 / A - A - -A = 1 / A by ring]
        ring
      · have : n ≠ 1 := by rintro rfl; norm_num at hn1
        rw [if_neg (not_lt.2 hn1), cb_mid_value hA hn h1' this]
        ring

/-- The hypotheses are met: a tail on the right (`alpha < 0`) with exponent 3 and an interval across the transition. -/
example : crystalballIntegral 1 2 (-1.5) 3 (-1) 9 = ∫ x in (-1 : ℝ)..9, crystalball x 1 2 (-1.5) 3 :=
  crystalball_integral_partial 1 2 (-1.5) 3 (-1) 9 (by norm_num) (by norm_num) (by norm_num)
    (Or.inr (by norm_num)) (by norm_num)

/-- C73, the missing part: for every exponent `1 < n < 1 + 1e-5` the analytic integral over `[-3, -2]` (with `mu = 0`,
`sigma = alpha = 1`) is larger than the integral. -/
theorem crystalball_integral_near_one_violated (n : ℝ) (h1 : 1 < n) (h2 : n < 1 + 1e-05) :
    ∫ x in (-3 : ℝ)..(-2), crystalball x 0 1 1 n < crystalballIntegral 0 1 1 n (-3) (-2) := by
  have ha : (1 : ℝ) ≠ 0 := one_ne_zero
  have hn : 0 < n := by linarith
  simp only [crystalball_eq _ 0 1 1 n ha hn]
  rw [reduced_integral (glue |1| (cbTail |1| n) core) 0 1 1 (-3) (-2) one_pos ha]
  simp only [crystalballIntegral]
  rw [if_neg (by norm_num), if_neg (by norm_num), abs_one, sub_zero, sub_zero, div_one, div_one, div_one, one_mul]
  rw [if_neg (by norm_num), if_pos (by norm_num), if_pos (by rw [abs_lt]; constructor <;> linarith),
    if_pos (show n - 1 - -3 > 0 by linarith), if_pos (show n - 1 - -2 > 0 by linarith)]
  rw [glue_integral_left 1 _ _ _ _ (by norm_num) (by norm_num) (cbTail_join 1 n one_pos hn)]
  unfold cbTail
  rw [integral_const_mul, div_one, mul_one]
  have hpos : (0 : ℝ) < n ^ n * Real.exp (-0.5 * 1 ^ 2) := mul_pos (Real.rpow_pos_of_pos hn _) (Real.exp_pos _)
  apply mul_lt_mul_of_pos_left _ hpos
  rw [← tail_integral_one _ _ _ (by linarith) (by linarith)]
  have hcont : ∀ r : ℝ, ContinuousOn (fun t : ℝ => (n - 1 - t) ^ r) (Set.Icc (-3) (-2)) := by
    intro r
    apply ContinuousOn.rpow_const (continuousOn_const.sub continuousOn_id)
    intro t ht
    left
    have := ht.2
    intro h0
    change n - 1 - t = 0 at h0
    linarith
  have hpt : ∀ t : ℝ, t ≤ -2 → (n - 1 - t) ^ (-n) < (n - 1 - t) ^ (-(1 : ℝ)) := by
    intro t ht
    exact Real.rpow_lt_rpow_of_exponent_lt (by linarith) (by linarith)
  apply integral_lt_integral_of_continuousOn_of_le_of_exists_lt (by norm_num) (hcont _) (hcont _)
  · intro t ht
    exact (hpt t ht.2).le
  · exact ⟨-2, ⟨by norm_num, le_rfl⟩, hpt _ le_rfl⟩

example : (1 : ℝ) < 1 + 5e-06 ∧ (1 : ℝ) + 5e-06 < 1 + 1e-05 := by norm_num

/-- C73. The same for the Gaussian with an exponential tail, for every `0 < sigma` and every `alpha ≠ 0`. -/
theorem gaussexptail_integral (mu sigma alpha lower upper : ℝ) (hs : 0 < sigma) (ha : alpha ≠ 0) (hl : lower ≤ upper) :
    gaussexptailIntegral mu sigma alpha lower upper = ∫ x in lower..upper, gaussexptail x mu sigma alpha := by
  have hA : 0 < |alpha| := abs_pos.2 ha
  simp only [gaussexptail_eq _ mu sigma alpha]
  rw [reduced_integral (glue |alpha| (expTail |alpha|) core) mu sigma alpha lower upper hs ha]
  have hle := reduced_le mu sigma alpha lower upper hs hl
  simp only [gaussexptailIntegral]
  generalize (if alpha < 0 then -((upper - mu) / |sigma|) else (lower - mu) / |sigma|) = tmin at hle ⊢
  generalize (if alpha < 0 then -((lower - mu) / |sigma|) else (upper - mu) / |sigma|) = tmax at hle ⊢
  rw [abs_of_pos hs]
  generalize |alpha| = A at hA ⊢
  have hj := expTail_join A
  by_cases h1 : -A ≤ tmin
  · rw [if_pos h1, glue_integral_right A _ _ _ _ hle h1]
    unfold core
    rw [gauss_integral]
    ring
  · rw [if_neg (show ¬ tmin ≥ -A from h1)]
    have h1' : tmin ≤ -A := (not_le.1 h1).le
    by_cases h2 : tmax ≤ -A
    · rw [if_pos h2, glue_integral_left A _ _ _ _ hle h2 hj]
      unfold expTail
      rw [exp_tail_integral A _ _ hA.ne']
      ring
    · rw [if_neg h2, glue_integral_mid A _ _ _ _ h1' (not_le.1 h2).le hj (exp_glue_continuous A)]
      have hg : ∫ t in (-A)..tmax, core t =
          Real.sqrt (Real.pi / 2) * (erf (tmax / Real.sqrt 2) - erf (-A / Real.sqrt 2)) := gauss_integral (-A) tmax
      have he : ∫ t in tmin..(-A), expTail A t = _ := exp_tail_integral A _ _ hA.ne'
      rw [hg, he]
      have e : A * -A = -A ^ 2 := by ring
      rw [e]
      ring

example : gaussexptailIntegral 1 2 (-1.5) (-1) 9 = ∫ x in (-1 : ℝ)..9, gaussexptail x 1 2 (-1.5) :=
  gaussexptail_integral 1 2 (-1.5) (-1) 9 (by norm_num) (by norm_num) (by norm_num)

/-! ### Two-sided shapes -/

/-- A two-sided integral glued at `mu` from two one-sided ones. -/
theorem two_sided_integral (f g : ℝ → ℝ) (If Ig : ℝ → ℝ → ℝ) (mu lower upper : ℝ) (hl : lower ≤ upper)
    (hf : ∀ a b, a ≤ b → If a b = ∫ x in a..b, f x) (hg : ∀ a b, a ≤ b → Ig a b = ∫ x in a..b, g x)
    (hcf : Continuous f) (hcg : Continuous g) (hj : f mu = g mu) :
    (open Classical in (if mu < lower then 0 else If lower (min mu upper)) +
      (if mu > upper then 0 else Ig (max mu lower) upper)) =
      ∫ x in lower..upper, (open Classical in if x < mu then f x else g x) := by
  have e : (fun x => open Classical in if x < mu then f x else g x) = glue (-mu) f g := by
    funext x
    simp only [glue, neg_neg]
  have hj' : f (-(-mu)) = g (-(-mu)) := by rw [neg_neg]; exact hj
  rw [e]
  by_cases h1 : mu < lower
  · have h2 : ¬ mu > upper := by intro h; linarith
    rw [if_pos h1, if_neg h2, max_eq_right h1.le, zero_add, hg _ _ hl,
      glue_integral_right (-mu) f g _ _ hl (by rw [neg_neg]; exact h1.le)]
  · by_cases h2 : mu > upper
    · rw [if_neg h1, if_pos h2, min_eq_right (le_of_lt h2), add_zero, hf _ _ hl,
        glue_integral_left (-mu) f g _ _ hl (by rw [neg_neg]; exact le_of_lt h2) hj']
    · rw [if_neg h1, if_neg h2, min_eq_left (not_lt.1 h2), max_eq_left (not_lt.1 h1), hf _ _ (not_lt.1 h1),
        hg _ _ (not_lt.1 h2)]
      have hc : Continuous (glue (-mu) f g) := glue_continuous _ _ _ hcf.continuousOn hcg hj'
      have hm := glue_integral_mid (-mu) f g lower upper (by rw [neg_neg]; exact not_lt.1 h1)
        (by rw [neg_neg]; exact not_lt.1 h2) hj' hc
      rw [neg_neg] at hm
      exact hm.symm

/-! ## C74: the shapes are continuous, smooth, positive, and peak at `mu` -/

theorem crystalball_continuous (mu sigma alpha n : ℝ) (ha : alpha ≠ 0) (hn : 0 < n) :
    Continuous fun x => crystalball x mu sigma alpha n := by
  simp only [crystalball_eq _ mu sigma alpha n ha hn]
  apply (cb_glue_continuous |alpha| n (abs_pos.2 ha) hn).comp
  fun_prop

theorem gaussexptail_continuous (mu sigma alpha : ℝ) : Continuous fun x => gaussexptail x mu sigma alpha := by
  simp only [gaussexptail_eq _ mu sigma alpha]
  apply (exp_glue_continuous |alpha|).comp
  fun_prop

theorem crystalball_at_mu (mu sigma alpha n : ℝ) (ha : alpha ≠ 0) (hn : 0 < n) :
    crystalball mu mu sigma alpha n = 1 := by
  rw [crystalball_eq _ mu sigma alpha n ha hn, sub_self, zero_div, zero_mul,
    glue_right (by linarith [abs_nonneg alpha])]
  simp [core]

theorem gaussexptail_at_mu (mu sigma alpha : ℝ) : gaussexptail mu mu sigma alpha = 1 := by
  rw [gaussexptail_eq _ mu sigma alpha, sub_self, zero_div, zero_mul, glue_right (by linarith [abs_nonneg alpha])]
  simp [core]

/-- C73. The two-sided Crystal Ball with two widths: its analytic integral over any interval is its integral, for widths
`0 < sigma`, transition points `alpha ≠ 0`, and tail exponents as in `crystalball_integral_partial`. Missing from the full claim: the cases
of `crystalball_integral_near_one_violated`, `crystalball_integral_negative_sigma_violated`. -/
theorem generalized_crystalball_integral_partial (mu sigmal alphal nl sigmar alphar nr lower upper : ℝ)
    (hsl : 0 < sigmal) (hsr : 0 < sigmar) (hal : alphal ≠ 0) (har : alphar ≠ 0) (hnl : 0 < nl) (hnr : 0 < nr)
    (hnl1 : nl = 1 ∨ 1e-05 ≤ |nl - 1|) (hnr1 : nr = 1 ∨ 1e-05 ≤ |nr - 1|) (hl : lower ≤ upper) :
    generalizedCrystalballIntegral mu sigmal alphal nl sigmar alphar nr lower upper =
      ∫ x in lower..upper, generalizedCrystalball x mu sigmal alphal nl sigmar alphar nr := by
  have har' : -alphar ≠ 0 := neg_ne_zero.2 har
  exact two_sided_integral (fun x => crystalball x mu sigmal alphal nl) (fun x => crystalball x mu sigmar (-alphar) nr)
    (crystalballIntegral mu sigmal alphal nl) (crystalballIntegral mu sigmar (-alphar) nr) mu lower upper hl
    (fun a b h => crystalball_integral_partial mu sigmal alphal nl a b hsl hal hnl hnl1 h)
    (fun a b h => crystalball_integral_partial mu sigmar (-alphar) nr a b hsr har' hnr hnr1 h)
    (crystalball_continuous mu sigmal alphal nl hal hnl) (crystalball_continuous mu sigmar (-alphar) nr har' hnr)
    ((crystalball_at_mu _ _ _ _ hal hnl).trans (crystalball_at_mu _ _ _ _ har' hnr).symm)

example : generalizedCrystalballIntegral 0 1 1 2 2 1 1 (-3) 4 =
    ∫ x in (-3 : ℝ)..4, generalizedCrystalball x 0 1 1 2 2 1 1 :=
  generalized_crystalball_integral_partial 0 1 1 2 2 1 1 (-3) 4 (by norm_num) (by norm_num) (by norm_num) (by norm_num)
    (by norm_num) (by norm_num) (Or.inr (by norm_num)) (Or.inl rfl) (by norm_num)

/-- C73. The two-sided Crystal Ball with one width. Missing from the full claim: the cases of `crystalball_integral_near_one_violated`,
`crystalball_integral_negative_sigma_violated`. -/
theorem double_crystalball_integral_partial (mu sigma alphal nl alphar nr lower upper : ℝ)
    (hs : 0 < sigma) (hal : alphal ≠ 0) (har : alphar ≠ 0) (hnl : 0 < nl) (hnr : 0 < nr)
    (hnl1 : nl = 1 ∨ 1e-05 ≤ |nl - 1|) (hnr1 : nr = 1 ∨ 1e-05 ≤ |nr - 1|) (hl : lower ≤ upper) :
    doubleCrystalballIntegral mu sigma alphal nl alphar nr lower upper =
      ∫ x in lower..upper, doubleCrystalball x mu sigma alphal nl alphar nr :=
  generalized_crystalball_integral_partial mu sigma alphal nl sigma alphar nr lower upper hs hs hal har hnl hnr hnl1 hnr1 hl

example : doubleCrystalballIntegral 0 1 1 2 3 1 1 4 = ∫ x in (1 : ℝ)..4, doubleCrystalball x 0 1 1 2 3 1 :=
  double_crystalball_integral_partial 0 1 1 2 3 1 1 4 (by norm_num) (by norm_num) (by norm_num)
    (by norm_num) (by norm_num) (Or.inr (by norm_num)) (Or.inl rfl) (by norm_num)

/-- C73. The Gaussian with exponential tails on both sides. -/
theorem generalized_gaussexptail_integral (mu sigmal alphal sigmar alphar lower upper : ℝ)
    (hsl : 0 < sigmal) (hsr : 0 < sigmar) (hal : alphal ≠ 0) (har : alphar ≠ 0) (hl : lower ≤ upper) :
    generalizedGaussexptailIntegral mu sigmal alphal sigmar alphar lower upper =
      ∫ x in lower..upper, generalizedGaussexptail x mu sigmal alphal sigmar alphar := by
  have har' : -alphar ≠ 0 := neg_ne_zero.2 har
  exact two_sided_integral (fun x => gaussexptail x mu sigmal alphal) (fun x => gaussexptail x mu sigmar (-alphar))
    (gaussexptailIntegral mu sigmal alphal) (gaussexptailIntegral mu sigmar (-alphar)) mu lower upper hl
    (fun a b h => gaussexptail_integral mu sigmal alphal a b hsl hal h)
    (fun a b h => gaussexptail_integral mu sigmar (-alphar) a b hsr har' h)
    (gaussexptail_continuous mu sigmal alphal) (gaussexptail_continuous mu sigmar (-alphar))
    ((gaussexptail_at_mu _ _ _).trans (gaussexptail_at_mu _ _ _).symm)

example : generalizedGaussexptailIntegral 0 1 1 2 3 (-3) 4 =
    ∫ x in (-3 : ℝ)..4, generalizedGaussexptail x 0 1 1 2 3 :=
  generalized_gaussexptail_integral 0 1 1 2 3 (-3) 4 (by norm_num) (by norm_num) (by norm_num) (by norm_num) (by norm_num)

/-- C73, negative width: although the integral takes `|sigma|`, the shape does not, so with `sigma = -1` the integral
over `[2, 3]`, where the mirrored shape has its tail, is that of the Gaussian core. -/
theorem crystalball_integral_negative_sigma_violated :
    crystalballIntegral 0 (-1) 1 2 2 3 ≠ ∫ x in (2 : ℝ)..3, crystalball x 0 (-1) 1 2 := by
  have hcode : crystalballIntegral 0 (-1) 1 2 2 3 = ∫ t in (2 : ℝ)..3, Real.exp (-0.5 * t ^ 2) := by
    rw [gauss_integral]
    simp only [crystalballIntegral]
    norm_num
  have htrue : ∫ x in (2 : ℝ)..3, crystalball x 0 (-1) 1 2 = Real.exp (-0.5) * (1 / 3) := by
    have e : ∀ x ∈ Set.uIcc (2 : ℝ) 3, crystalball x 0 (-1) 1 2 = 4 * Real.exp (-0.5) * (-1 - x) ^ (-2 : ℤ) := by
      intro x hx
      rw [Set.uIcc_of_le (by norm_num)] at hx
      have h1 := hx.1
      rw [crystalball_eq _ _ _ _ _ one_ne_zero (by norm_num)]
      have : (x - 0) / -1 * Real.sign 1 = -x := by rw [Real.sign_of_pos one_pos]; ring
      rw [this, abs_one, glue_left (by linarith), cbTail]
      have h3 : (2 : ℝ) / 1 - 1 - -x = 1 + x := by ring
      have h4 : (-1 - x : ℝ) ^ (-2 : ℤ) = (1 + x) ^ (-2 : ℤ) := by
        rw [show (-1 - x : ℝ) = -(1 + x) by ring]
        rw [Even.neg_zpow (by decide)]
      rw [h3, h4]
      have h5 : (1 + x : ℝ) ^ (-2 : ℝ) = (1 + x) ^ (-2 : ℤ) := by
        rw [← Real.rpow_intCast]
        norm_num
      rw [h5, show ((2 : ℝ) / 1) ^ (2 : ℝ) = 4 by norm_num]
      norm_num
    rw [integral_congr e, integral_const_mul]
    have : ∫ x in (2 : ℝ)..3, (-1 - x) ^ (-2 : ℤ) = 1 / 12 := by
      rw [integral_comp_sub_left (fun u => u ^ (-2 : ℤ)) (-1)]
      rw [integral_zpow (Or.inr ⟨by norm_num, Set.notMem_uIcc_of_gt (by norm_num) (by norm_num)⟩)]
      norm_num
    rw [this]
    ring
  rw [hcode, htrue]
  apply ne_of_lt
  have hb : ∫ t in (2 : ℝ)..3, Real.exp (-0.5 * t ^ 2) ≤ ∫ _ in (2 : ℝ)..3, Real.exp (-2) := by
    apply integral_mono_on (by norm_num) (Continuous.intervalIntegrable (by fun_prop) _ _) (by simp)
    intro t ht
    apply Real.exp_le_exp.2
    nlinarith [ht.1]
  rw [integral_const, smul_eq_mul, show (3 : ℝ) - 2 = 1 by norm_num, one_mul] at hb
  refine lt_of_le_of_lt hb ?_
  have h6 : Real.exp (-0.5) = Real.exp (-2) * Real.exp 0.5 ^ 3 := by
    rw [← Real.exp_nat_mul, ← Real.exp_add]
    norm_num
  have h7 : (1.5 : ℝ) ≤ Real.exp 0.5 := by
    have := Real.add_one_le_exp (0.5 : ℝ)
    linarith
  have h8 : (1.5 : ℝ) ^ 3 ≤ Real.exp 0.5 ^ 3 := pow_le_pow_left₀ (by norm_num) h7 3
  rw [h6]
  nlinarith [Real.exp_pos (-2)]

/-! ### The documented formula -/

/-- C73. For `0 < alpha` and `0 < n` the value is the documented piecewise formula: a Gaussian where
`(x - mu) / sigma ≥ -alpha` and `A (B - (x - mu) / sigma) ^ (-n)` below. -/
theorem crystalball_documented (x mu sigma alpha n : ℝ) (ha : 0 < alpha) (hn : 0 < n) :
    (-alpha ≤ (x - mu) / sigma → crystalball x mu sigma alpha n = Real.exp (-((x - mu) ^ 2) / (2 * sigma ^ 2))) ∧
    ((x - mu) / sigma < -alpha → crystalball x mu sigma alpha n =
      (n / |alpha|) ^ n * Real.exp (-(|alpha| ^ 2 / 2)) * ((n / |alpha| - |alpha|) - (x - mu) / sigma) ^ (-n)) := by
  rw [crystalball_eq _ mu sigma alpha n ha.ne' hn, Real.sign_of_pos ha, mul_one, abs_of_pos ha]
  refine ⟨fun h => ?_, fun h => ?_⟩
  · rw [glue_right h, core]
    congr 1
    rw [div_pow, div_eq_mul_inv, div_eq_mul_inv, mul_inv]
    ring
  · rw [glue_left h, cbTail, show -0.5 * alpha ^ 2 = -(alpha ^ 2 / 2) by ring]

example : -(1 : ℝ) ≤ (0 - 0) / 1 ∧ ((-2 : ℝ) - 0) / 1 < -1 := by norm_num

/-! ### C74 continued -/

/-- What C74 asks of a shape: continuous and differentiable, positive everywhere, one at `mu`, rising up to `mu` and
falling from there on. -/
structure PeakShape (mu : ℝ) (f : ℝ → ℝ) : Prop where
  differentiable : Differentiable ℝ f
  pos : ∀ x, 0 < f x
  peak : f mu = 1
  rises : ∀ x y, x ≤ y → y ≤ mu → f x ≤ f y
  falls : ∀ x y, mu ≤ x → x ≤ y → f y ≤ f x

theorem PeakShape.continuous {mu : ℝ} {f : ℝ → ℝ} (h : PeakShape mu f) : Continuous f := h.differentiable.continuous

theorem PeakShape.le_one {mu : ℝ} {f : ℝ → ℝ} (h : PeakShape mu f) (x : ℝ) : f x ≤ 1 := by
  rw [← h.peak]
  rcases le_total x mu with hx | hx
  · exact h.rises x mu hx le_rfl
  · exact h.falls mu x le_rfl hx

/-- C74. The Crystal Ball. -/
theorem crystalball_peak (mu sigma alpha n : ℝ) (hs : 0 < sigma) (ha : alpha ≠ 0) (hn : 0 < n) :
    PeakShape mu fun x => crystalball x mu sigma alpha n := by
  have hA : 0 < |alpha| := abs_pos.2 ha
  have hj := cbTail_join |alpha| n hA hn
  have hup : ∀ s t, s ≤ t → t ≤ 0 → glue |alpha| (cbTail |alpha| n) core s ≤ glue |alpha| (cbTail |alpha| n) core t :=
    fun s t hst ht => glue_mono |alpha| _ _ 0 (cbTail_mono |alpha| n hA hn) (fun s t _ => core_mono s t) hj s t hst ht
  have hdown : ∀ s t, 0 ≤ s → s ≤ t → glue |alpha| (cbTail |alpha| n) core t ≤ glue |alpha| (cbTail |alpha| n) core s := by
    intro s t h0 hst
    rw [glue_right (by linarith), glue_right (by linarith)]
    exact core_anti s t h0 hst
  refine ⟨?_, ?_, crystalball_at_mu mu sigma alpha n ha hn, ?_, ?_⟩
  · simp only [crystalball_eq _ mu sigma alpha n ha hn]
    refine Differentiable.comp (g := glue |alpha| (cbTail |alpha| n) core) ?_ ?_
    · exact glue_differentiable |alpha| _ _ _ (fun t ht => (cbTail_hasDerivAt |alpha| n t hA hn ht).differentiableAt)
        (fun t _ => (core_hasDerivAt t).differentiableAt) (cbTail_deriv_join |alpha| n hA hn) (core_hasDerivAt _) hj
    · fun_prop
  · intro x
    simp only [crystalball_eq _ mu sigma alpha n ha hn]
    by_cases h : (x - mu) / sigma * Real.sign alpha < -|alpha|
    · rw [glue_left h]
      exact cbTail_pos hA hn h.le
    · rw [glue_right (not_lt.1 h)]
      exact Real.exp_pos _
  · intro x y hxy hy
    simp only [crystalball_eq _ mu sigma alpha n ha hn]
    exact (unimodal_reduced _ mu sigma alpha hs ha hup hdown x y hxy).1 hy
  · intro x y hx hxy
    simp only [crystalball_eq _ mu sigma alpha n ha hn]
    exact (unimodal_reduced _ mu sigma alpha hs ha hup hdown x y hxy).2 hx

example : PeakShape 1 fun x => crystalball x 1 2 (-1.5) 3 :=
  crystalball_peak 1 2 (-1.5) 3 (by norm_num) (by norm_num) (by norm_num)

/-- C74. The Gaussian with an exponential tail. -/
theorem gaussexptail_peak (mu sigma alpha : ℝ) (hs : 0 < sigma) (ha : alpha ≠ 0) :
    PeakShape mu fun x => gaussexptail x mu sigma alpha := by
  have hA : 0 < |alpha| := abs_pos.2 ha
  have hj := expTail_join |alpha|
  have hmono : ∀ s t, s ≤ t → t ≤ -|alpha| → expTail |alpha| s ≤ expTail |alpha| t := by
    intro s t hst _
    unfold expTail
    apply Real.exp_le_exp.2
    nlinarith
  have hup : ∀ s t, s ≤ t → t ≤ 0 → glue |alpha| (expTail |alpha|) core s ≤ glue |alpha| (expTail |alpha|) core t :=
    fun s t hst ht => glue_mono |alpha| _ _ 0 hmono (fun s t _ => core_mono s t) hj s t hst ht
  have hdown : ∀ s t, 0 ≤ s → s ≤ t → glue |alpha| (expTail |alpha|) core t ≤ glue |alpha| (expTail |alpha|) core s := by
    intro s t h0 hst
    rw [glue_right (by linarith), glue_right (by linarith)]
    exact core_anti s t h0 hst
  refine ⟨?_, ?_, gaussexptail_at_mu mu sigma alpha, ?_, ?_⟩
  · simp only [gaussexptail_eq _ mu sigma alpha]
    refine Differentiable.comp (g := glue |alpha| (expTail |alpha|) core) ?_ ?_
    · have hd : HasDerivAt (expTail |alpha|) (-(-|alpha|) * core (-|alpha|)) (-|alpha|) := by
        refine (expTail_hasDerivAt |alpha| (-|alpha|)).congr_deriv ?_
        rw [hj, neg_neg]
      exact glue_differentiable |alpha| _ _ _ (fun t _ => (expTail_hasDerivAt |alpha| t).differentiableAt)
        (fun t _ => (core_hasDerivAt t).differentiableAt) hd (core_hasDerivAt _) hj
    · fun_prop
  · intro x
    simp only [gaussexptail]
    exact Real.exp_pos _
  · intro x y hxy hy
    simp only [gaussexptail_eq _ mu sigma alpha]
    exact (unimodal_reduced _ mu sigma alpha hs ha hup hdown x y hxy).1 hy
  · intro x y hx hxy
    simp only [gaussexptail_eq _ mu sigma alpha]
    exact (unimodal_reduced _ mu sigma alpha hs ha hup hdown x y hxy).2 hx

example : PeakShape 1 fun x => gaussexptail x 1 2 (-1.5) := gaussexptail_peak 1 2 (-1.5) (by norm_num) (by norm_num)

/-- Two peak shapes at the same point, glued there. -/
theorem two_sided_peak (mu : ℝ) (f g : ℝ → ℝ) (hf : PeakShape mu f) (hg : PeakShape mu g) :
    PeakShape mu fun x => open Classical in if x < mu then f x else g x := by
  have e : (fun x => open Classical in if x < mu then f x else g x) = glue (-mu) f g := by
    funext x
    simp only [glue, neg_neg]
  have hj : f (-(-mu)) = g (-(-mu)) := by rw [neg_neg, hf.peak, hg.peak]
  have hmax : ∀ h : ℝ → ℝ, PeakShape mu h → HasDerivAt h 0 (-(-mu)) := by
    intro h hh
    rw [neg_neg]
    have hloc : IsLocalMax h mu := Filter.Eventually.of_forall fun x => by rw [hh.peak]; exact hh.le_one x
    have := (hh.differentiable mu).hasDerivAt
    rwa [hloc.deriv_eq_zero] at this
  rw [e]
  refine ⟨?_, ?_, ?_, ?_, ?_⟩
  · exact glue_differentiable (-mu) f g 0 (fun t _ => hf.differentiable t) (fun t _ => hg.differentiable t)
      (hmax f hf) (hmax g hg) hj
  · intro x
    by_cases h : x < mu
    · rw [glue_left (by rwa [neg_neg])]; exact hf.pos x
    · rw [glue_right (by rw [neg_neg]; exact not_lt.1 h)]; exact hg.pos x
  · rw [glue_right (by rw [neg_neg])]; exact hg.peak
  · intro x y hxy hy
    rw [glue_of_le hj (by rw [neg_neg]; linarith), glue_of_le hj (by rw [neg_neg]; linarith)]
    exact hf.rises x y hxy hy
  · intro x y hx hxy
    rw [glue_right (by rw [neg_neg]; linarith), glue_right (by rw [neg_neg]; linarith)]
    exact hg.falls x y hx hxy

/-- C74. The two-sided Crystal Ball with two widths. -/
theorem generalized_crystalball_peak (mu sigmal alphal nl sigmar alphar nr : ℝ) (hsl : 0 < sigmal) (hsr : 0 < sigmar)
    (hal : alphal ≠ 0) (har : alphar ≠ 0) (hnl : 0 < nl) (hnr : 0 < nr) :
    PeakShape mu fun x => generalizedCrystalball x mu sigmal alphal nl sigmar alphar nr :=
  two_sided_peak mu _ _ (crystalball_peak mu sigmal alphal nl hsl hal hnl)
    (crystalball_peak mu sigmar (-alphar) nr hsr (neg_ne_zero.2 har) hnr)

/-- C74. The two-sided Crystal Ball with one width. -/
theorem double_crystalball_peak (mu sigma alphal nl alphar nr : ℝ) (hs : 0 < sigma)
    (hal : alphal ≠ 0) (har : alphar ≠ 0) (hnl : 0 < nl) (hnr : 0 < nr) :
    PeakShape mu fun x => doubleCrystalball x mu sigma alphal nl alphar nr :=
  two_sided_peak mu _ _ (crystalball_peak mu sigma alphal nl hs hal hnl)
    (crystalball_peak mu sigma (-alphar) nr hs (neg_ne_zero.2 har) hnr)

/-- C74. The Gaussian with exponential tails on both sides. -/
theorem generalized_gaussexptail_peak (mu sigmal alphal sigmar alphar : ℝ) (hsl : 0 < sigmal) (hsr : 0 < sigmar)
    (hal : alphal ≠ 0) (har : alphar ≠ 0) :
    PeakShape mu fun x => generalizedGaussexptail x mu sigmal alphal sigmar alphar :=
  two_sided_peak mu _ _ (gaussexptail_peak mu sigmal alphal hsl hal)
    (gaussexptail_peak mu sigmar (-alphar) hsr (neg_ne_zero.2 har))

example : (PeakShape 0 fun x => generalizedCrystalball x 0 1 1 2 2 1 1) ∧
    (PeakShape 0 fun x => doubleCrystalball x 0 1 1 2 3 1) ∧
    PeakShape 0 fun x => generalizedGaussexptail x 0 1 1 2 3 :=
  ⟨generalized_crystalball_peak 0 1 1 2 2 1 1 (by norm_num) (by norm_num) (by norm_num) (by norm_num) (by norm_num)
    (by norm_num), double_crystalball_peak 0 1 1 2 3 1 (by norm_num) (by norm_num) (by norm_num) (by norm_num)
    (by norm_num), generalized_gaussexptail_peak 0 1 1 2 3 (by norm_num) (by norm_num) (by norm_num) (by norm_num)⟩

end Zfit.Phys
