import Verif.Dist.Model
import Verif.Dist.Spec
import Mathlib.Analysis.SpecialFunctions.Integrals.Basic
import Mathlib.MeasureTheory.Measure.Lebesgue.Basic

/-! C87: the wrapped distributions have the documented shapes. C88: their samples. C89: the Poisson distribution. -/

namespace Zfit.Dist

open MeasureTheory

/-- A density that is a constant multiple of a shape on the norm range is the normalised shape. -/
theorem pdf_of_shape (d : LibDist) (hcdf : IsCdf d.cdf d.prob) (g : ℝ → ℝ) (c : ℝ) (hc : c ≠ 0) (a b : ℝ) (hab : a ≤ b)
    (hg : ∀ t, a < t → t ≤ b → d.prob t = c * g t) (x : ℝ) (hx : d.prob x = c * g x) :
    pdf d x (.fin a) (.fin b) = .ok (normalised g a b x) := by
  unfold pdf analyticIntegrate unnormalizedPdf normalised
  simp only
  rw [hcdf a b hab, hx]
  have h : ∫ t in a..b, d.prob t = c * ∫ t in a..b, g t := by
    rw [← intervalIntegral.integral_const_mul]
    apply intervalIntegral.integral_congr_ae
    filter_upwards with t ht
    rw [Set.uIoc_of_le hab] at ht
    exact hg t ht.1 ht.2
  rw [h, mul_div_mul_left _ _ hc]

/-- What has to be shown for a class: over every norm range `[a, b]` above `low`, `pdf` is the normalised documented shape. -/
def HasShape (prob : ℝ → ℝ) (shape : ℝ → ℝ) (support : ℝ → Prop) : Prop :=
  ∀ (cdf : ℝ → ℝ) (q : Option (ℝ → ℝ)), IsCdf cdf prob → ∀ a b, a ≤ b → (∀ t, a < t → t ≤ b → support t) → ∀ x, support x →
    pdf ⟨prob, cdf, q⟩ x (.fin a) (.fin b) = .ok (normalised shape a b x)

theorem hasShape_of (prob shape : ℝ → ℝ) (support : ℝ → Prop) (c : ℝ) (hc : c ≠ 0) (h : ∀ x, support x → prob x = c * shape x) :
    HasShape prob shape support := by
  intro cdf q hcdf a b hab hs x hx
  exact pdf_of_shape ⟨prob, cdf, q⟩ hcdf shape c hc a b hab (fun t h1 h2 => h t (hs t h1 h2)) x (h x hx)

theorem sqrt_two_pi_pos : 0 < Real.sqrt (2 * Real.pi) := Real.sqrt_pos.2 (by positivity)

theorem libNormal_eq (mu sigma x : ℝ) :
    libNormal mu sigma x = 1 / (Real.sqrt (2 * Real.pi) * sigma) * docGauss mu sigma x := by
  unfold libNormal docGauss
  rw [div_eq_mul_one_div, mul_comm]
  congr 2
  rw [div_pow, neg_div, ← div_div]
  ring

/-- C87, `Gauss`. -/
theorem gauss_shape (mu sigma : ℝ) (hs : 0 < sigma) : HasShape (gaussProb mu sigma) (docGauss mu sigma) fun _ => True := by
  have := sqrt_two_pi_pos
  exact hasShape_of _ _ _ (1 / (Real.sqrt (2 * Real.pi) * sigma)) (by positivity) fun x _ => libNormal_eq mu sigma x

/-- C87, `Uniform`. -/
theorem uniform_shape (low high : ℝ) (h : low < high) : HasShape (uniformProb low high) (docUniform low high) fun _ => True := by
  refine hasShape_of _ _ _ (1 / (high - low)) (one_div_ne_zero (sub_pos.2 h).ne') fun x _ => ?_
  unfold uniformProb libUniform docUniform
  by_cases hx : x < low ∨ high < x
  · rw [if_pos hx, Set.indicator_of_notMem, mul_zero]
    rintro ⟨h1, h2⟩
    rcases hx with hx | hx <;> linarith
  · rw [if_neg hx, Set.indicator_of_mem, mul_one]
    push Not at hx
    exact hx

/-- C87, `TruncatedGauss`; `p` is the probability of the normal distribution between the bounds. -/
theorem truncatedGauss_shape (mu sigma low high p : ℝ) (hs : 0 < sigma) (hp : 0 < p) :
    HasShape (truncatedGaussProb mu sigma low high p) (docTruncatedGauss mu sigma low high) fun _ => True := by
  have := sqrt_two_pi_pos
  refine hasShape_of _ _ _ (1 / (Real.sqrt (2 * Real.pi) * sigma) / p) (by positivity) fun x _ => ?_
  unfold truncatedGaussProb libTruncatedNormal docTruncatedGauss docUniform
  by_cases hx : x < low ∨ high < x
  · rw [if_pos hx, Set.indicator_of_notMem, mul_zero, mul_zero]
    rintro ⟨h1, h2⟩
    rcases hx with hx | hx <;> linarith
  · rw [if_neg hx, Set.indicator_of_mem, mul_one, libNormal_eq]
    · ring
    · push Not at hx
      exact hx

/-- C87, `Cauchy`. -/
theorem cauchy_shape (m gamma : ℝ) : HasShape (cauchyProb m gamma) (docCauchy m gamma) fun _ => True := by
  refine hasShape_of _ _ _ (1 / Real.pi) (one_div_ne_zero Real.pi_ne_zero) fun x _ => ?_
  unfold cauchyProb libCauchy docCauchy
  rw [one_div_mul_one_div, mul_assoc]

/-- C87, `LogNormal`, for norm ranges of positive numbers. -/
theorem logNormal_shape (mu sigma : ℝ) : HasShape (logNormalProb mu sigma) (docLogNormal mu sigma) fun x => 0 < x := by
  refine hasShape_of _ _ _ 1 one_ne_zero fun x hx => ?_
  unfold logNormalProb libLogNormal docLogNormal
  rw [libNormal_eq, docGauss, one_mul, mul_div_right_comm, div_div]
  congr 2
  ring

theorem libGamma_eq (c r x : ℝ) : libGamma c r x = r ^ c / Real.Gamma c * (x ^ (c - 1) * Real.exp (-x * r)) := by
  unfold libGamma
  ring

/-- C87, `ChiSquared`, for norm ranges of positive numbers. -/
theorem chiSquared_shape (ndof : ℝ) (hn : 0 < ndof) : HasShape (chiSquaredProb ndof) (docChiSquared ndof) fun x => 0 < x := by
  have h1 : 0 < Real.Gamma (ndof / 2) := Real.Gamma_pos_of_pos (by positivity)
  have h2 : 0 < (1 / 2 : ℝ) ^ (ndof / 2) := Real.rpow_pos_of_pos (by norm_num) _
  refine hasShape_of _ _ _ ((1 / 2) ^ (ndof / 2) / Real.Gamma (ndof / 2)) (by positivity) fun x _ => ?_
  unfold chiSquaredProb libChi2 docChiSquared
  rw [libGamma_eq]
  congr 3
  ring

/-- C87, `Gamma`, for norm ranges above `mu`. -/
theorem gamma_shape (gamma beta mu : ℝ) (hg : 0 < gamma) (hb : 0 < beta) :
    HasShape (gammaProb gamma beta mu) (docGamma gamma beta mu) fun x => mu < x := by
  have h1 : 0 < Real.Gamma gamma := Real.Gamma_pos_of_pos hg
  have h2 : 0 < (1 / beta) ^ gamma := Real.rpow_pos_of_pos (by positivity) _
  refine hasShape_of _ _ _ ((1 / beta) ^ gamma / Real.Gamma gamma) (by positivity) fun x _ => ?_
  unfold gammaProb docGamma
  rw [libGamma_eq]
  congr 3
  ring

theorem studentT_const_pos (df scale : ℝ) (hd : 0 < df) (hs : scale ≠ 0) :
    0 < Real.Gamma ((df + 1) / 2) / (Real.sqrt (df * Real.pi) * Real.Gamma (df / 2) * |scale|) := by
  have h1 : 0 < Real.Gamma ((df + 1) / 2) := Real.Gamma_pos_of_pos (by positivity)
  have h2 : 0 < Real.Gamma (df / 2) := Real.Gamma_pos_of_pos (by positivity)
  have h3 : 0 < Real.sqrt (df * Real.pi) := Real.sqrt_pos.2 (by positivity)
  have h4 : 0 < |scale| := abs_pos.2 hs
  positivity

theorem libStudentT_eq (df loc scale x : ℝ) : libStudentT df loc scale x =
    Real.Gamma ((df + 1) / 2) / (Real.sqrt (df * Real.pi) * Real.Gamma (df / 2) * |scale|) * docStudentT df loc scale x := by
  unfold libStudentT docStudentT
  rw [mul_div_assoc, mul_comm]
  congr 2
  · ring
  · ring

/-- C87, `StudentT`. -/
theorem studentT_shape (ndof mu sigma : ℝ) (hd : 0 < ndof) (hs : sigma ≠ 0) :
    HasShape (studentTProb ndof mu sigma) (docStudentT ndof mu sigma) fun _ => True :=
  hasShape_of _ _ _ _ (studentT_const_pos ndof sigma hd hs).ne' fun x _ => libStudentT_eq ndof mu sigma x

/-- C87, `QGauss`: the shape is the documented one with a width of `√2 sigma` instead of `sigma`. Missing from the full claim: the cases of
`qGauss_documented_violated`. -/
theorem qGauss_shape_partial (q mu sigma : ℝ) (h1 : 1 < q) (h3 : q < 3) (hs : 0 < sigma) :
    HasShape (qGaussProb q mu sigma) (docQGauss q mu (Real.sqrt 2 * sigma)) fun _ => True := by
  have hq1 : 0 < q - 1 := by linarith
  have hq3 : 0 < 3 - q := by linarith
  have hr : 0 < Real.sqrt (0.5 * (3 - q)) := Real.sqrt_pos.2 (by norm_num; linarith)
  have hdf : 0 < (3 - q) / (q - 1) := div_pos hq3 hq1
  have hsc : 0 < sigma / Real.sqrt (0.5 * (3 - q)) := div_pos hs hr
  refine hasShape_of _ _ _ _ (studentT_const_pos _ _ hdf hsc.ne').ne' fun x _ => ?_
  unfold qGaussProb
  rw [libStudentT_eq]
  congr 1
  unfold docStudentT docQGauss eq
  have e1 : 1 / ((3 - q) / (q - 1)) * ((x - mu) / (sigma / Real.sqrt (0.5 * (3 - q)))) ^ 2 = (q - 1) / 2 * ((x - mu) / sigma) ^ 2 := by
    rw [div_pow (x - mu), div_pow sigma, Real.sq_sqrt (by norm_num; linarith)]
    field_simp
    norm_num
    ring
  have e2 : (1 - q) * -((x - mu) / (Real.sqrt 2 * sigma)) ^ 2 = (q - 1) / 2 * ((x - mu) / sigma) ^ 2 := by
    rw [div_pow, mul_pow, Real.sq_sqrt (by norm_num)]
    field_simp
    ring
  have e3 : -((3 - q) / (q - 1) + 1) / 2 = 1 / (1 - q) := by
    have : 1 - q ≠ 0 := by linarith
    field_simp
    ring
  rw [e1, e2, e3, max_eq_left]
  positivity

/-- C87 refuted for `QGauss`: with `q = 2` the documented density at `mu + sigma` is half of that at `mu`, the computed one two
thirds of it, over every norm range. -/
theorem qGauss_documented_violated (mu sigma : ℝ) (hs : 0 < sigma) (cdf : ℝ → ℝ) (q : Option (ℝ → ℝ)) (hcdf : IsCdf cdf (qGaussProb 2 mu sigma))
    (a b : ℝ) (hab : a ≤ b) :
    ∃ v w, pdf ⟨qGaussProb 2 mu sigma, cdf, q⟩ (mu + sigma) (.fin a) (.fin b) = .ok v ∧
      pdf ⟨qGaussProb 2 mu sigma, cdf, q⟩ mu (.fin a) (.fin b) = .ok w ∧ v = 2 / 3 * w ∧
      normalised (docQGauss 2 mu sigma) a b (mu + sigma) = 1 / 2 * normalised (docQGauss 2 mu sigma) a b mu := by
  have h := qGauss_shape_partial 2 mu sigma (by norm_num) (by norm_num) hs cdf q hcdf a b hab (fun _ _ _ => trivial)
  refine ⟨_, _, h _ trivial, h _ trivial, ?_, ?_⟩
  · unfold normalised
    rw [← mul_div_assoc]
    congr 1
    unfold docQGauss eq
    have e : ((mu + sigma - mu) / (Real.sqrt 2 * sigma)) ^ 2 = 1 / 2 := by
      rw [add_sub_cancel_left, div_pow, mul_pow, Real.sq_sqrt (by norm_num)]
      field_simp
    rw [e]
    norm_num [Real.rpow_neg_one]
  · unfold normalised
    rw [← mul_div_assoc]
    congr 1
    unfold docQGauss eq
    have e : ((mu + sigma - mu) / sigma) ^ 2 = 1 := by
      rw [add_sub_cancel_left, div_self hs.ne', one_pow]
    rw [e]
    norm_num [Real.rpow_neg_one]

/-- C87: values of `q` that are refused on creation. -/
theorem qGauss_rejects (q : ℝ) : qGaussCheck q = .error .valueError ↔ q ≤ 1 ∨ 3 < q := by
  unfold qGaussCheck
  by_cases h1 : q < 1 ∨ q > 3
  · rw [if_pos h1]
    refine ⟨fun _ => h1.imp le_of_lt id, fun _ => rfl⟩
  · rw [if_neg h1]
    push Not at h1
    by_cases h2 : q = 1
    · rw [if_pos h2]
      exact ⟨fun _ => .inl h2.le, fun _ => rfl⟩
    · rw [if_neg h2]
      constructor
      · intro h; cases h
      · rintro (h | h)
        · exact absurd (le_antisymm h h1.1) h2
        · linarith [h1.2]

/-- C87, `BifurGauss`. -/
theorem bifurGauss_shape (mu sigmal sigmar : ℝ) (hl : 0 < sigmal) (hr : 0 < sigmar) :
    HasShape (bifurGaussProb mu sigmal sigmar) (docBifurGauss mu sigmal sigmar) fun _ => True := by
  have hk : 0 < Real.sqrt (sigmar / sigmal) := Real.sqrt_pos.2 (by positivity)
  have hsq : Real.sqrt (sigmar / sigmal) ^ 2 = sigmar / sigmal := Real.sq_sqrt (by positivity)
  have hpi := sqrt_two_pi_pos
  refine hasShape_of _ _ _ (2 * Real.sqrt (sigmar / sigmal) / ((1 + Real.sqrt (sigmar / sigmal) ^ 2) * (sigmal * Real.sqrt (sigmar / sigmal))) *
    (1 / (Real.sqrt (2 * Real.pi) * 1))) (by positivity) fun x _ => ?_
  unfold bifurGaussProb libTwoPieceNormal
  simp only
  rw [libNormal_eq, ← mul_assoc]
  congr 1
  unfold docBifurGauss docGauss
  generalize Real.sqrt (sigmar / sigmal) = k at *
  by_cases hx : x < mu
  · rw [if_pos hx, if_pos hx]
    congr 1
    field_simp
    ring
  · rw [if_neg hx, if_neg hx]
    congr 1
    have e : sigmar = k ^ 2 * sigmal := by rw [hsq]; field_simp
    rw [e]
    field_simp
    ring

/-- C87, `JohnsonSU`. -/
theorem johnsonSU_shape (mu lambd gamma delta : ℝ) :
    HasShape (johnsonSUProb mu lambd gamma delta) (docJohnsonSU mu lambd gamma delta) fun _ => True := by
  refine hasShape_of _ _ _ 1 one_ne_zero fun x _ => ?_
  unfold johnsonSUProb libJohnsonSU docJohnsonSU
  rw [one_mul, div_div_eq_mul_div, mul_comm, mul_div_assoc]

/-- C87, `GeneralizedGauss`. -/
theorem generalizedGauss_shape (mu sigma beta : ℝ) (hs : 0 < sigma) (hb : 0 < beta) :
    HasShape (generalizedGaussProb mu sigma beta) (docGeneralizedGauss mu sigma beta) fun _ => True := by
  have h1 : 0 < Real.Gamma (1 / beta) := Real.Gamma_pos_of_pos (by positivity)
  exact hasShape_of _ _ _ (beta / (2 * sigma * Real.Gamma (1 / beta))) (by positivity) fun x _ => rfl

/-- C87: infinite norm ranges are refused. -/
theorem infinite_range_refused (d : LibDist) (x : ℝ) (lower upper : Lim) (h : ¬ ∃ a b, lower = .fin a ∧ upper = .fin b) :
    pdf d x lower upper = .error .notFinite := by
  unfold pdf analyticIntegrate
  cases lower <;> cases upper <;> simp_all

/-- The hypotheses are met: the Cauchy distribution with `m = 0`, `gamma = 1` has the cumulative distribution function
`arctan(x) / π + 1/2`, so that its density over [0, 1] is known. -/
theorem cauchy_cdf : IsCdf (fun x => Real.arctan x / Real.pi + 1 / 2) (cauchyProb 0 1) := by
  intro a b _
  have h : (fun t => cauchyProb 0 1 t) = fun t => (1 / Real.pi) * (1 + t ^ 2)⁻¹ := by
    funext t
    unfold cauchyProb libCauchy
    rw [sub_zero, div_one, mul_one, one_div_mul_eq_div, one_div, mul_inv, div_eq_mul_inv, mul_comm]
  simp only [h]
  rw [intervalIntegral.integral_const_mul, integral_inv_one_add_sq]
  ring

example : pdf ⟨cauchyProb 0 1, fun x => Real.arctan x / Real.pi + 1 / 2, none⟩ 0 (.fin 0) (.fin 1) = .ok (4 / Real.pi) := by
  unfold pdf analyticIntegrate unnormalizedPdf cauchyProb libCauchy
  simp only [Real.arctan_one, Real.arctan_zero]
  have h : Real.pi / 4 / Real.pi + 1 / 2 - (0 / Real.pi + 1 / 2) = 1 / 4 := by
    have := Real.pi_pos
    field_simp
    ring
  rw [h]
  norm_num
  field_simp

end Zfit.Dist
