import Verif.Pdf.UnitModel
import Verif.Dist.Props
import Verif.Phys.VoigtProps
import Verif.Num.ExpProps

/-!
# C305: the unit of an observable makes no difference

In another unit the value `x` of the observable is `a * x + b` (`a` positive, `b` for temperatures and the like).
-/

namespace Zfit.Units

open Zfit Zfit.Phys Zfit.Num

/-- Specification: the same PDF in the other unit. Positions transform like the observable, widths are multiplied by `a`, everything
else has no unit. -/
noncomputable def Shape.inUnit (a b : ℝ) : Shape → Shape
  | .crystalball mu sigma alpha n => .crystalball (a * mu + b) (a * sigma) alpha n
  | .doubleCrystalball mu sigma al nl ar nr => .doubleCrystalball (a * mu + b) (a * sigma) al nl ar nr
  | .generalizedCrystalball mu sl al nl sr ar nr => .generalizedCrystalball (a * mu + b) (a * sl) al nl (a * sr) ar nr
  | .gaussexptail mu sigma alpha => .gaussexptail (a * mu + b) (a * sigma) alpha
  | .generalizedGaussexptail mu sl al sr ar => .generalizedGaussexptail (a * mu + b) (a * sl) al (a * sr) ar
  | .voigt m sigma gamma n => .voigt (a * m + b) (a * sigma) (a * gamma) n
  | .polynomial f coeffs lo hi => .polynomial f coeffs (a * lo + b) (a * hi + b)
  | .bernstein coeffs lo hi => .bernstein coeffs (a * lo + b) (a * hi + b)

section

variable {a b : ℝ}

theorem std_unit (ha : 0 < a) (x mu sigma : ℝ) : (a * x + b - (a * mu + b)) / (a * sigma) = (x - mu) / sigma := by
  rw [show a * x + b - (a * mu + b) = a * (x - mu) by ring, mul_div_mul_left _ _ ha.ne']

theorem lt_unit (ha : 0 < a) (x y : ℝ) : a * x + b < a * y + b ↔ x < y := by
  rw [add_lt_add_iff_right, mul_lt_mul_iff_right₀ ha]

theorem min_unit (ha : 0 < a) (x y : ℝ) : min (a * x + b) (a * y + b) = a * min x y + b := by
  rw [min_add_add_right, mul_min_of_nonneg _ _ ha.le]

theorem max_unit (ha : 0 < a) (x y : ℝ) : max (a * x + b) (a * y + b) = a * max x y + b := by
  rw [max_add_add_right, mul_max_of_nonneg _ _ ha.le]

theorem crystalball_unit (ha : 0 < a) (x mu sigma alpha n : ℝ) :
    Phys.crystalball (a * x + b) (a * mu + b) (a * sigma) alpha n = Phys.crystalball x mu sigma alpha n := by
  unfold Phys.crystalball
  rw [std_unit ha]

theorem gaussexptail_unit (ha : 0 < a) (x mu sigma alpha : ℝ) :
    Phys.gaussexptail (a * x + b) (a * mu + b) (a * sigma) alpha = Phys.gaussexptail x mu sigma alpha := by
  unfold Phys.gaussexptail
  rw [std_unit ha]

theorem crystalballIntegral_unit (ha : 0 < a) (mu sigma alpha n l u : ℝ) :
    crystalballIntegral (a * mu + b) (a * sigma) alpha n (a * l + b) (a * u + b) = a * crystalballIntegral mu sigma alpha n l u := by
  unfold crystalballIntegral
  simp only [abs_mul, abs_of_pos ha, std_unit ha]
  split_ifs <;> ring

theorem gaussexptailIntegral_unit (ha : 0 < a) (mu sigma alpha l u : ℝ) :
    gaussexptailIntegral (a * mu + b) (a * sigma) alpha (a * l + b) (a * u + b) = a * gaussexptailIntegral mu sigma alpha l u := by
  unfold gaussexptailIntegral
  simp only [abs_mul, abs_of_pos ha, std_unit ha]
  split_ifs <;> ring

theorem rescale_unit (ha : 0 < a) (lo hi x : ℝ) :
    (⟨a * lo + b, a * hi + b, true⟩ : PolyPdf).rescale (a * x + b) = (⟨lo, hi, true⟩ : PolyPdf).rescale x := by
  unfold PolyPdf.rescale
  simp only [if_true]
  rw [show 2 * (a * x + b) - (a * lo + b) - (a * hi + b) = a * (2 * x - lo - hi) by ring,
    show a * hi + b - (a * lo + b) = a * (hi - lo) by ring, mul_div_mul_left _ _ ha.ne']

theorem rescaleZeroOne_unit (ha : 0 < a) (lo hi x : ℝ) :
    rescaleZeroOne ⟨a * lo + b, a * hi + b, true⟩ (a * x + b) = rescaleZeroOne ⟨lo, hi, true⟩ x := by
  unfold rescaleZeroOne
  rw [show a * x + b - (a * lo + b) = a * (x - lo) by ring, show a * hi + b - (a * lo + b) = a * (hi - lo) by ring,
    mul_div_mul_left _ _ ha.ne']

theorem polyIntegral_unit (ha : 0 < a) (f : Family) (coeffs : List ℝ) (lo hi l u : ℝ) :
    f.integral ⟨a * lo + b, a * hi + b, true⟩ coeffs (a * l + b) (a * u + b) = a * f.integral ⟨lo, hi, true⟩ coeffs l u := by
  have h : a * hi + b - (a * lo + b) = a * (hi - lo) := by ring
  cases f <;> simp only [Family.integral, legendreIntegral, chebyshevIntegral, chebyshev2Integral, laguerreIntegral, hermiteIntegral,
    rescale_unit ha, h] <;> ring

theorem bernFromMin_unit (ha : 0 < a) (coeffs : List ℝ) (lo hi x : ℝ) :
    bernFromMin ⟨a * lo + b, a * hi + b, true⟩ coeffs (a * x + b) = (bernFromMin ⟨lo, hi, true⟩ coeffs x).map (a * ·) := by
  unfold bernFromMin
  rw [rescaleZeroOne_unit ha]
  cases deCasteljau (rescaleZeroOne ⟨lo, hi, true⟩ x) (coeffsInt coeffs) with
  | error e => rfl
  | ok v =>
    show Except.ok _ = Except.ok _
    congr 1
    simp only
    ring

theorem bernIntegral_unit (ha : 0 < a) (coeffs : List ℝ) (lo hi l u : ℝ) :
    bernIntegral ⟨a * lo + b, a * hi + b, true⟩ coeffs (a * l + b) (a * u + b) = (bernIntegral ⟨lo, hi, true⟩ coeffs l u).map (a * ·) := by
  unfold bernIntegral
  rw [bernFromMin_unit ha, bernFromMin_unit ha]
  cases bernFromMin ⟨lo, hi, true⟩ coeffs u with
  | error e => rfl
  | ok v =>
    cases bernFromMin ⟨lo, hi, true⟩ coeffs l with
    | error e => rfl
    | ok w =>
      show Except.ok _ = Except.ok _
      congr 1
      simp only
      ring

/-- The numeric integral of a function that is divided by `a`. -/
theorem simpson_unit (ha : 0 < a) (f g : ℝ → ℝ) (hfg : ∀ x, g (a * x + b) = f x / a) (l u : ℝ) (n : ℕ) :
    simpson g (a * l + b) (a * u + b) n = simpson f l u n := by
  unfold simpson
  split_ifs
  · rfl
  · rfl
  · simp only
    have hdx : (a * u + b - (a * l + b)) / ((n : ℝ) - 1) = a * ((u - l) / ((n : ℝ) - 1)) := by
      rw [show a * u + b - (a * l + b) = a * (u - l) by ring, mul_div_assoc]
    have hg : (grid (a * l + b) (a * ((u - l) / ((n : ℝ) - 1))) n).map g
        = ((grid l ((u - l) / ((n : ℝ) - 1)) n).map f).map (fun y => y / a) := by
      unfold grid
      simp only [List.map_map]
      apply List.map_congr_left
      intro i _
      simp only [Function.comp_apply]
      rw [← hfg]
      congr 1
      ring
    rw [hdx, hg]
    have hz : ∀ (xs ws : List ℝ), (List.zipWith (· * ·) (xs.map fun y => y / a) ws).sum = (List.zipWith (· * ·) xs ws).sum / a := by
      intro xs
      induction xs with
      | nil => simp
      | cons y ys ih =>
        intro ws
        cases ws with
        | nil => simp
        | cons w ws =>
          simp only [List.map_cons, List.zipWith_cons_cons, List.sum_cons, ih]
          ring
    rw [hz]
    congr 1
    field_simp

theorem voigt_unit (ha : 0 < a) (x m sigma gamma : ℝ) :
    Phys.voigt (a * x + b) (a * m + b) (a * sigma) (a * gamma) = Phys.voigt x m sigma gamma / a := by
  have h1 := voigt_shift (a * x) (a * m) b (a * sigma) (a * gamma)
  have h2 := voigt_scale (x - m) (a * m) sigma gamma a ha.ne'
  have h3 := voigt_shift x m (a * m - m) sigma gamma
  rw [h1, show a * x = a * m + a * (x - m) by ring, h2, show a * m + (x - m) = x + (a * m - m) by ring]
  rw [show voigt (x + (a * m - m)) (a * m) sigma gamma = voigt (x + (a * m - m)) (m + (a * m - m)) sigma gamma by
    rw [show m + (a * m - m) = a * m by ring], h3]

/-- C305: in another unit the density is divided by the factor between the units, for every value of the parameters, all
limits and all points. -/
theorem density_unit (ha : 0 < a) (s : Shape) (l u x : ℝ) :
    (s.inUnit a b).pdf (a * l + b) (a * u + b) (a * x + b) = (s.pdf l u x).map (· / a) := by
  have key : ∀ v i : ℝ, v / (a * i) = v / i / a := fun v i => by rw [mul_comm, div_div]
  cases s with
  | crystalball mu sigma alpha n =>
    simp only [Shape.inUnit, Shape.pdf, Shape.unnormalized, Shape.integral, crystalball_unit ha, crystalballIntegral_unit ha]
    exact congrArg Except.ok (key _ _)
  | doubleCrystalball mu sigma al nl ar nr =>
    simp only [Shape.inUnit, Shape.pdf, Shape.unnormalized, Shape.integral, Phys.doubleCrystalball, doubleCrystalballIntegral,
      crystalball_unit ha, crystalballIntegral_unit ha, lt_unit ha, min_unit ha, max_unit ha, gt_iff_lt]
    refine congrArg Except.ok ?_
    split_ifs <;> simp only [← mul_add, mul_zero, zero_add, add_zero, key, div_zero, zero_div]
  | generalizedCrystalball mu sl al nl sr ar nr =>
    simp only [Shape.inUnit, Shape.pdf, Shape.unnormalized, Shape.integral, Phys.generalizedCrystalball,
      generalizedCrystalballIntegral, crystalball_unit ha, crystalballIntegral_unit ha, lt_unit ha, min_unit ha, max_unit ha, gt_iff_lt]
    refine congrArg Except.ok ?_
    split_ifs <;> simp only [← mul_add, mul_zero, zero_add, add_zero, key, div_zero, zero_div]
  | gaussexptail mu sigma alpha =>
    simp only [Shape.inUnit, Shape.pdf, Shape.unnormalized, Shape.integral, gaussexptail_unit ha, gaussexptailIntegral_unit ha]
    exact congrArg Except.ok (key _ _)
  | generalizedGaussexptail mu sl al sr ar =>
    simp only [Shape.inUnit, Shape.pdf, Shape.unnormalized, Shape.integral, Phys.generalizedGaussexptail,
      generalizedGaussexptailIntegral, gaussexptail_unit ha, gaussexptailIntegral_unit ha, lt_unit ha, min_unit ha, max_unit ha, gt_iff_lt]
    refine congrArg Except.ok ?_
    split_ifs <;> simp only [← mul_add, mul_zero, zero_add, add_zero, key, div_zero, zero_div]
  | voigt m sigma gamma n =>
    simp only [Shape.inUnit, Shape.pdf, Shape.unnormalized, Shape.integral, voigt_unit ha, simpsonIntegrate, List.mapM_cons, List.mapM_nil]
    rw [simpson_unit ha (fun x => Phys.voigt x m sigma gamma) _ (fun x => voigt_unit ha x m sigma gamma)]
    cases simpson (fun x => Phys.voigt x m sigma gamma) l u (sanitize n) with
    | error e => rfl
    | ok i =>
      show Except.ok _ = Except.ok _
      congr 1
      exact div_right_comm _ _ _
  | polynomial f coeffs lo hi =>
    simp only [Shape.inUnit, Shape.pdf, Shape.unnormalized, Shape.integral, Family.unnormalized, rescale_unit ha, polyIntegral_unit ha]
    exact congrArg Except.ok (key _ _)
  | bernstein coeffs lo hi =>
    simp only [Shape.inUnit, Shape.pdf, Shape.unnormalized, Shape.integral, bernUnnormalized, bernRescale, if_true,
      rescaleZeroOne_unit ha, bernIntegral_unit ha]
    cases deCasteljau (rescaleZeroOne ⟨lo, hi, true⟩ x) coeffs with
    | error e => rfl
    | ok v =>
      cases bernIntegral ⟨lo, hi, true⟩ coeffs l u with
      | error e => rfl
      | ok i =>
        show Except.ok _ = Except.ok _
        congr 1
        exact key _ _

theorem integral_unit (ha : 0 < a) (s : Shape) : ∃ c : ℝ, 0 < c ∧ ∀ l u,
    (s.inUnit a b).integral (a * l + b) (a * u + b) = (s.integral l u).map (c * ·) := by
  cases s with
  | crystalball mu sigma alpha n =>
    exact ⟨a, ha, fun l u => congrArg Except.ok (crystalballIntegral_unit ha ..)⟩
  | doubleCrystalball mu sigma al nl ar nr =>
    refine ⟨a, ha, fun l u => congrArg Except.ok ?_⟩
    simp only [doubleCrystalballIntegral, crystalballIntegral_unit ha, lt_unit ha, min_unit ha, max_unit ha, gt_iff_lt]
    split_ifs <;> ring
  | generalizedCrystalball mu sl al nl sr ar nr =>
    refine ⟨a, ha, fun l u => congrArg Except.ok ?_⟩
    simp only [generalizedCrystalballIntegral, crystalballIntegral_unit ha, lt_unit ha, min_unit ha, max_unit ha, gt_iff_lt]
    split_ifs <;> ring
  | gaussexptail mu sigma alpha => exact ⟨a, ha, fun l u => congrArg Except.ok (gaussexptailIntegral_unit ha ..)⟩
  | generalizedGaussexptail mu sl al sr ar =>
    refine ⟨a, ha, fun l u => congrArg Except.ok ?_⟩
    simp only [generalizedGaussexptailIntegral, gaussexptailIntegral_unit ha, lt_unit ha, min_unit ha, max_unit ha, gt_iff_lt]
    split_ifs <;> ring
  | voigt m sigma gamma n =>
    refine ⟨1, one_pos, fun l u => ?_⟩
    simp only [Shape.inUnit, Shape.integral, simpsonIntegrate, List.mapM_cons, List.mapM_nil]
    rw [simpson_unit ha (fun x => Phys.voigt x m sigma gamma) _ (fun x => voigt_unit ha x m sigma gamma)]
    cases simpson (fun x => Phys.voigt x m sigma gamma) l u (sanitize n) with
    | error e => rfl
    | ok i => exact congrArg Except.ok (one_mul _).symm
  | polynomial f coeffs lo hi => exact ⟨a, ha, fun l u => congrArg Except.ok (polyIntegral_unit ha ..)⟩
  | bernstein coeffs lo hi => exact ⟨a, ha, fun l u => bernIntegral_unit ha ..⟩

/-- C305: the fraction inside limits does not depend on the unit. -/
theorem fraction_unit (ha : 0 < a) (s : Shape) (nl nu l u : ℝ) :
    (s.inUnit a b).fraction (a * nl + b) (a * nu + b) (a * l + b) (a * u + b) = s.fraction nl nu l u := by
  obtain ⟨c, hc, h⟩ := integral_unit (b := b) ha s
  unfold Shape.fraction
  rw [h, h]
  cases s.integral l u with
  | error e => rfl
  | ok v =>
    cases s.integral nl nu with
    | error e => rfl
    | ok i => exact congrArg Except.ok (mul_div_mul_left _ _ hc.ne')

/-! ### Wrapped distributions -/

open Zfit.Dist in
/-- Specification: a distribution with the density `prob'` is that with the density `prob` in the other unit, for all norm
ranges and all points in the support of the documentation. -/
def SameInUnit (a b : ℝ) (prob prob' : ℝ → ℝ) (support : ℝ → Prop) : Prop :=
  ∀ (cdf cdf' : ℝ → ℝ) (q q' : Option (ℝ → ℝ)), IsCdf cdf prob → IsCdf cdf' prob' → ∀ l u, l ≤ u → (∀ t, l < t → t ≤ u → support t) →
    ∀ x, support x → ∃ v, pdf ⟨prob, cdf, q⟩ x (.fin l) (.fin u) = .ok v ∧
      pdf ⟨prob', cdf', q'⟩ (a * x + b) (.fin (a * l + b)) (.fin (a * u + b)) = .ok (v / a)

open Zfit.Dist in
theorem sameInUnit_of (ha : 0 < a) {prob prob' : ℝ → ℝ} {support : ℝ → Prop} (h : ∀ x, support x → prob' (a * x + b) = prob x / a) :
    SameInUnit a b prob prob' support := by
  intro cdf cdf' q q' hc hc' l u hlu hs x hx
  refine ⟨_, rfl, ?_⟩
  unfold pdf analyticIntegrate unnormalizedPdf
  simp only
  have hlu' : a * l + b ≤ a * u + b := by nlinarith
  rw [hc l u hlu, hc' _ _ hlu', h x hx]
  have hi : ∫ t in (a * l + b)..(a * u + b), prob' t = ∫ t in l..u, prob t := by
    have h1 := intervalIntegral.integral_comp_mul_add (a := l) (b := u) prob' ha.ne' b
    have h2 : ∫ t in l..u, prob' (a * t + b) = a⁻¹ * ∫ t in l..u, prob t := by
      rw [← intervalIntegral.integral_const_mul]
      apply intervalIntegral.integral_congr_ae
      filter_upwards with t ht
      rw [Set.uIoc_of_le hlu] at ht
      rw [h t (hs t ht.1 ht.2), div_eq_inv_mul]
    rw [h2, smul_eq_mul] at h1
    exact (mul_left_cancel₀ (inv_ne_zero ha.ne') h1).symm
  rw [hi, div_right_comm]

open Zfit.Dist

theorem libNormal_unit (ha : 0 < a) (mu sigma x : ℝ) : libNormal (a * mu + b) (a * sigma) (a * x + b) = libNormal mu sigma x / a := by
  unfold libNormal
  rw [std_unit ha, div_div]
  congr 1
  ring

/-- C305, `Gauss`. -/
theorem gauss_unit (ha : 0 < a) (mu sigma : ℝ) :
    SameInUnit a b (gaussProb mu sigma) (gaussProb (a * mu + b) (a * sigma)) fun _ => True :=
  sameInUnit_of ha fun x _ => libNormal_unit ha mu sigma x

/-- C305, `Uniform`. -/
theorem uniform_unit (ha : 0 < a) (low high : ℝ) :
    SameInUnit a b (uniformProb low high) (uniformProb (a * low + b) (a * high + b)) fun _ => True :=
  sameInUnit_of ha fun x _ => by
    unfold uniformProb libUniform
    simp only [lt_unit ha]
    split_ifs
    · simp
    · rw [show a * high + b - (a * low + b) = (high - low) * a by ring, div_div]

/-- C305, `TruncatedGauss`: `p` is the probability between the bounds. -/
theorem truncatedGauss_unit (ha : 0 < a) (mu sigma low high p : ℝ) :
    SameInUnit a b (truncatedGaussProb mu sigma low high p)
      (truncatedGaussProb (a * mu + b) (a * sigma) (a * low + b) (a * high + b) p) fun _ => True :=
  sameInUnit_of ha fun x _ => by
    unfold truncatedGaussProb libTruncatedNormal
    simp only [lt_unit ha, libNormal_unit ha]
    split_ifs
    · simp
    · rw [div_right_comm]

/-- C305, `Cauchy`. -/
theorem cauchy_unit (ha : 0 < a) (m gamma : ℝ) :
    SameInUnit a b (cauchyProb m gamma) (cauchyProb (a * m + b) (a * gamma)) fun _ => True :=
  sameInUnit_of ha fun x _ => by
    unfold cauchyProb libCauchy
    rw [std_unit ha, div_div]
    congr 1
    ring

/-- C305, `LogNormal`: a factor only, which is added to `mu` as a logarithm. -/
theorem logNormal_unit (ha : 0 < a) (mu sigma : ℝ) :
    SameInUnit a 0 (logNormalProb mu sigma) (logNormalProb (mu + Real.log a) sigma) fun x => 0 < x :=
  sameInUnit_of ha fun x hx => by
    unfold logNormalProb libLogNormal libNormal
    rw [add_zero, Real.log_mul ha.ne' (ne_of_gt hx), show Real.log a + Real.log x - (mu + Real.log a) = Real.log x - mu by ring,
      div_div, div_div, div_div]
    congr 1
    ring

theorem libStudentT_unit (ha : 0 < a) (df mu sigma x : ℝ) :
    libStudentT df (a * mu + b) (a * sigma) (a * x + b) = libStudentT df mu sigma x / a := by
  unfold libStudentT
  rw [std_unit ha, abs_mul, abs_of_pos ha, div_div]
  congr 1
  ring

/-- C305, `StudentT`. -/
theorem studentT_unit (ha : 0 < a) (ndof mu sigma : ℝ) :
    SameInUnit a b (studentTProb ndof mu sigma) (studentTProb ndof (a * mu + b) (a * sigma)) fun _ => True :=
  sameInUnit_of ha fun x _ => libStudentT_unit ha ndof mu sigma x

/-- C305, `QGauss`. -/
theorem qGauss_unit (ha : 0 < a) (q mu sigma : ℝ) :
    SameInUnit a b (qGaussProb q mu sigma) (qGaussProb q (a * mu + b) (a * sigma)) fun _ => True :=
  sameInUnit_of ha fun x _ => by
    unfold qGaussProb
    simp only [mul_div_assoc]
    exact libStudentT_unit ha _ mu _ x

/-- C305, `BifurGauss`. -/
theorem bifurGauss_unit (ha : 0 < a) (mu sigmal sigmar : ℝ) :
    SameInUnit a b (bifurGaussProb mu sigmal sigmar) (bifurGaussProb (a * mu + b) (a * sigmal) (a * sigmar)) fun _ => True :=
  sameInUnit_of ha fun x _ => by
    unfold bifurGaussProb libTwoPieceNormal
    simp only [mul_div_mul_left _ _ ha.ne', mul_assoc, lt_unit ha, std_unit ha]
    generalize Real.sqrt (sigmar / sigmal) = k
    rw [show (1 + k ^ 2) * (a * (sigmal * k)) = (1 + k ^ 2) * (sigmal * k) * a by ring, ← div_div, div_mul_eq_mul_div, mul_div_assoc]

/-- C305, `Gamma`. -/
theorem gamma_unit (ha : 0 < a) (gamma beta mu : ℝ) (hb : 0 < beta) :
    SameInUnit a b (gammaProb gamma beta mu) (gammaProb gamma (a * beta) (a * mu + b)) fun x => mu < x :=
  sameInUnit_of ha fun x hx => by
    have hx' : 0 < x - mu := sub_pos.2 hx
    unfold gammaProb libGamma
    rw [show a * x + b - (a * mu + b) = a * (x - mu) by ring, Real.mul_rpow ha.le hx'.le,
      show -(a * (x - mu)) * (1 / (a * beta)) = -(x - mu) * (1 / beta) by field_simp,
      show 1 / (a * beta) = a⁻¹ * (1 / beta) by rw [one_div, mul_inv, one_div],
      Real.mul_rpow (inv_pos.2 ha).le (one_div_pos.2 hb).le, Real.inv_rpow ha.le, Real.rpow_sub_one ha.ne']
    have : a ^ gamma ≠ 0 := (Real.rpow_pos_of_pos ha _).ne'
    field_simp

/-- C305, `JohnsonSU`. -/
theorem johnsonSU_unit (ha : 0 < a) (mu lambd gamma delta : ℝ) :
    SameInUnit a b (johnsonSUProb mu lambd gamma delta) (johnsonSUProb (a * mu + b) (a * lambd) gamma delta) fun _ => True :=
  sameInUnit_of ha fun x _ => by
    unfold johnsonSUProb libJohnsonSU
    rw [std_unit ha, mul_assoc a lambd, mul_assoc a, mul_comm a, ← div_div]
    ring

/-- C305, `GeneralizedGauss`. -/
theorem generalizedGauss_unit (ha : 0 < a) (mu sigma beta : ℝ) :
    SameInUnit a b (generalizedGaussProb mu sigma beta) (generalizedGaussProb (a * mu + b) (a * sigma) beta) fun _ => True :=
  sameInUnit_of ha fun x _ => by
    unfold generalizedGaussProb libGeneralizedNormal
    rw [show a * x + b - (a * mu + b) = a * (x - mu) by ring, abs_mul, abs_of_pos ha, mul_div_mul_left _ _ ha.ne',
      show 2 * (a * sigma) * Real.Gamma (1 / beta) = 2 * sigma * Real.Gamma (1 / beta) * a by ring, ← div_div]
    ring

/-! ### The exponential -/

/-- C305, `Exponential`: `lambda` is divided by the factor; for every history of calls of both. -/
theorem exponential_unit (ha : 0 < a) (lam : ℝ) (hl : lam ≠ 0) (history history' : List ExpCall) (norm : Pieces) (hn : ProperNorm norm)
    (x : ℝ) : ∃ v, (expCall lam (expHistory lam history) (.pdf x norm none)).1 = .ok (some v) ∧
      (expCall (lam / a) (expHistory (lam / a) history')
        (.pdf (a * x + b) (norm.map fun p => (a * p.1 + b, a * p.2 + b)) none)).1 = .ok (some (v / a)) := by
  have hn' : ProperNorm (norm.map fun p => (a * p.1 + b, a * p.2 + b)) := by
    refine ⟨by simpa using hn.1, ?_⟩
    intro p hp
    obtain ⟨r, hr, rfl⟩ := List.mem_map.1 hp
    exact (lt_unit ha _ _).2 (hn.2 r hr)
  refine ⟨_, exponential_pdf lam hl history x norm hn, ?_⟩
  rw [exponential_pdf (lam / a) (div_ne_zero hl ha.ne') history' _ _ hn']
  congr 2
  have hexp : ∀ t, Real.exp (lam / a * (a * t + b)) = Real.exp (lam * t) * Real.exp (lam / a * b) := by
    intro t
    rw [← Real.exp_add]
    congr 1
    field_simp
  have hi : trueIntegral (lam / a) (norm.map fun p => (a * p.1 + b, a * p.2 + b))
      = a * Real.exp (lam / a * b) * trueIntegral lam norm := by
    unfold trueIntegral
    rw [List.map_map, ← List.sum_map_mul_left]
    congr 1
    apply List.map_congr_left
    intro p _
    simp only [Function.comp_apply]
    have h1 := intervalIntegral.integral_comp_mul_add (a := p.1) (b := p.2) (fun t => Real.exp (lam / a * t)) ha.ne' b
    simp only [hexp, smul_eq_mul] at h1
    rw [intervalIntegral.integral_mul_const] at h1
    rw [mul_assoc, mul_comm (Real.exp _), h1, mul_inv_cancel_left₀ ha.ne']
  rw [hi, hexp]
  have := (Real.exp_pos (lam / a * b)).ne'
  rw [show a * Real.exp (lam / a * b) * trueIntegral lam norm = (a * trueIntegral lam norm) * Real.exp (lam / a * b) by ring,
    mul_div_mul_right _ _ this, mul_comm a, div_div]

end

/-- non-vacuity: a Crystal Ball in MeV and in GeV -/
example (l u x : ℝ) : (Shape.crystalball 5.28 0.02 1 3).pdf l u x =
    ((Shape.crystalball 5280 20 1 3).pdf (1000 * l) (1000 * u) (1000 * x)).map (· * 1000) := by
  have h := density_unit (a := 1000) (b := 0) (by norm_num) (.crystalball 5.28 0.02 1 3) l u x
  simp only [add_zero, Shape.inUnit] at h
  norm_num at h
  norm_num
  rw [h]
  cases (Shape.crystalball (132 / 25) (1 / 50) 1 3).pdf l u x with
  | error e => rfl
  | ok v => exact congrArg Except.ok (by ring)

end Zfit.Units
