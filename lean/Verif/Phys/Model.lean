import Mathlib.Analysis.SpecialFunctions.Pow.Real
import Mathlib.Analysis.SpecialFunctions.Gaussian.GaussianIntegral
import Mathlib.MeasureTheory.Integral.IntervalIntegral.Basic
import Mathlib.Data.Real.Sign

/-! Model of zfit/models/physics.py: the Crystal Ball family and the Gaussian with exponential tails.

Floating point numbers are real numbers. `tf.math.erf` is the error function, defined below by its integral. Tensors of
points and of limits are treated one element at a time, every function below being element-wise; `limits` is one
rectangular interval `lower`, `upper` (limits made of several pieces are split by the caller, area `Pdf`). The branches
not taken by `tf.where` are computed by the code but have no effect on the value. -/

namespace Zfit.Phys

/-- `tf.math.erf`: the error function (TensorFlow; trusted). -/
noncomputable def erf (x : ℝ) : ℝ := 2 / Real.sqrt Real.pi * ∫ t in (0 : ℝ)..x, Real.exp (-t ^ 2)

/-- zfit/z/zextension.py 111-136 `safe_where`: `func` sees `values` where the condition holds and a safe value
elsewhere; the result takes `func` where the condition holds and `safe_func` elsewhere. -/
noncomputable def safeWhere (cond : Prop) [Decidable cond] (func safeFunc : ℝ → ℝ) (values : ℝ) (valueSafer : ℝ → ℝ) :
    ℝ :=
  let safeX := if cond then values else valueSafer values
  if cond then func safeX else safeFunc values

/-- zfit/models/physics.py 23-24 `_powerlaw`. -/
noncomputable def powerlaw (x a k : ℝ) : ℝ := a * x ^ k

open Classical in
/-- zfit/models/physics.py 27-41 `crystalball_func`. -/
noncomputable def crystalball (x mu sigma alpha n : ℝ) : ℝ :=
  let t := (x - mu) / sigma * Real.sign alpha
  let absAlpha := |alpha|
  let a := (n / absAlpha) ^ n * Real.exp (-0.5 * alpha ^ 2)
  let b := n / absAlpha - absAlpha
  max (safeWhere (t < -absAlpha) (fun t => powerlaw (b - t) a (-n)) (fun t => Real.exp (-0.5 * t ^ 2)) t
    (fun _ => 1 * (b - 2))) 0

open Classical in
/-- zfit/models/physics.py 44-52 `double_crystalball_func`. -/
noncomputable def doubleCrystalball (x mu sigma alphal nl alphar nr : ℝ) : ℝ :=
  if x < mu then crystalball x mu sigma alphal nl else crystalball x mu sigma (-alphar) nr

open Classical in
/-- zfit/models/physics.py 55-63 `generalized_crystalball_func`. -/
noncomputable def generalizedCrystalball (x mu sigmal alphal nl sigmar alphar nr : ℝ) : ℝ :=
  if x < mu then crystalball x mu sigmal alphal nl else crystalball x mu sigmar (-alphar) nr

open Classical in
/-- zfit/models/physics.py 79-138 `crystalball_integral_func`; the removal of the last dimension of the tensor (136-137)
has no counterpart for one element. -/
noncomputable def crystalballIntegral (mu sigma alpha n lower upper : ℝ) : ℝ :=
  let sqrtPiOverTwo := Real.sqrt (Real.pi / 2)
  let sqrt2 := Real.sqrt 2
  let useLog : Prop := |n - 1| < 1e-05
  let absSigma := |sigma|
  let absAlpha := |alpha|
  let tmin0 := (lower - mu) / absSigma
  let tmax0 := (upper - mu) / absSigma
  let tmax := if alpha < 0 then -tmin0 else tmax0
  let tmin := if alpha < 0 then -tmax0 else tmin0
  let ifTrue4 := absSigma * sqrtPiOverTwo * (erf (tmax / sqrt2) - erf (tmin / sqrt2))
  let a := (n / absAlpha) ^ n * Real.exp (-0.5 * absAlpha ^ 2)
  let b := n / absAlpha - absAlpha
  let bTmin := b - tmin
  let safeBTmin := if bTmin > 0 then bTmin else 1
  let bTmax := b - tmax
  let safeBTmax := if bTmax > 0 then bTmax else 1
  let ifTrue1 := a * absSigma * (Real.log safeBTmin - Real.log safeBTmax)
  let ifFalse1 := a * absSigma / (1 - n) * (1 / safeBTmin ^ (n - 1) - 1 / safeBTmax ^ (n - 1))
  let ifTrue3 := if useLog then ifTrue1 else ifFalse1
  let ifTrue2 := a * absSigma * (Real.log safeBTmin - Real.log (n / absAlpha))
  let ifFalse2 := a * absSigma / (1 - n) * (1 / safeBTmin ^ (n - 1) - 1 / (n / absAlpha) ^ (n - 1))
  let term1 := if useLog then ifTrue2 else ifFalse2
  let term2 := absSigma * sqrtPiOverTwo * (erf (tmax / sqrt2) - erf (-absAlpha / sqrt2))
  let ifFalse3 := term1 + term2
  let ifFalse4 := if tmax ≤ -absAlpha then ifTrue3 else ifFalse3
  if tmin ≥ -absAlpha then ifTrue4 else ifFalse4

open Classical in
/-- zfit/models/physics.py 211-226 `generalized_crystalball_mu_integral_func`. -/
noncomputable def generalizedCrystalballIntegral (mu sigmal alphal nl sigmar alphar nr lower upper : ℝ) : ℝ :=
  let upperOfLower := min mu upper
  let integralLeft := crystalballIntegral mu sigmal alphal nl lower upperOfLower
  let left := if mu < lower then 0 else integralLeft
  let lowerOfUpper := max mu lower
  let integralRight := crystalballIntegral mu sigmar (-alphar) nr lowerOfUpper upper
  let right := if mu > upper then 0 else integralRight
  left + right

open Classical in
/-- zfit/models/physics.py 166-181 `double_crystalball_mu_integral_func`. -/
noncomputable def doubleCrystalballIntegral (mu sigma alphal nl alphar nr lower upper : ℝ) : ℝ :=
  let upperOfLower := min mu upper
  let integralLeft := crystalballIntegral mu sigma alphal nl lower upperOfLower
  let left := if mu < lower then 0 else integralLeft
  let lowerOfUpper := max mu lower
  let integralRight := crystalballIntegral mu sigma (-alphar) nr lowerOfUpper upper
  let right := if mu > upper then 0 else integralRight
  left + right

open Classical in
/-- zfit/models/physics.py 600-612 `gaussexptail_func`. -/
noncomputable def gaussexptail (x mu sigma alpha : ℝ) : ℝ :=
  let t := (x - mu) / sigma * Real.sign alpha
  let absAlpha := |alpha|
  Real.exp (safeWhere (t < -absAlpha) (fun t => 0.5 * absAlpha ^ 2 + absAlpha * t) (fun t => -0.5 * t ^ 2) t
    (fun _ => 1 * absAlpha))

open Classical in
/-- zfit/models/physics.py 615-623 `generalized_gaussexptail_func`. -/
noncomputable def generalizedGaussexptail (x mu sigmal alphal sigmar alphar : ℝ) : ℝ :=
  if x < mu then gaussexptail x mu sigmal alphal else gaussexptail x mu sigmar (-alphar)

open Classical in
/-- zfit/models/physics.py 637-676 `gaussexptail_integral_func`. -/
noncomputable def gaussexptailIntegral (mu sigma alpha lower upper : ℝ) : ℝ :=
  let sqrtPiOverTwo := Real.sqrt (Real.pi / 2)
  let sqrt2 := Real.sqrt 2
  let absSigma := |sigma|
  let absAlpha := |alpha|
  let tmin0 := (lower - mu) / absSigma
  let tmax0 := (upper - mu) / absSigma
  let tmax := if alpha < 0 then -tmin0 else tmax0
  let tmin := if alpha < 0 then -tmax0 else tmin0
  let gaussMinMax := absSigma * sqrtPiOverTwo * (erf (tmax / sqrt2) - erf (tmin / sqrt2))
  let expMinMax := absSigma / absAlpha * Real.exp (0.5 * absAlpha ^ 2) *
    (Real.exp (absAlpha * tmax) - Real.exp (absAlpha * tmin))
  let gaussAlphaMax := absSigma * sqrtPiOverTwo * (erf (tmax / sqrt2) - erf (-absAlpha / sqrt2))
  let expMinAlpha := absSigma / absAlpha * Real.exp (0.5 * absAlpha ^ 2) *
    (Real.exp (-absAlpha ^ 2) - Real.exp (absAlpha * tmin))
  let integralSum := expMinAlpha + gaussAlphaMax
  let conditional := if tmax ≤ -absAlpha then expMinMax else integralSum
  if tmin ≥ -absAlpha then gaussMinMax else conditional

open Classical in
/-- zfit/models/physics.py 702-714 `generalized_gaussexptail_integral_func`. -/
noncomputable def generalizedGaussexptailIntegral (mu sigmal alphal sigmar alphar lower upper : ℝ) : ℝ :=
  let upperOfLower := min mu upper
  let integralLeft := gaussexptailIntegral mu sigmal alphal lower upperOfLower
  let left := if mu < lower then 0 else integralLeft
  let lowerOfUpper := max mu lower
  let integralRight := gaussexptailIntegral mu sigmar (-alphar) lowerOfUpper upper
  let right := if mu > upper then 0 else integralRight
  left + right

end Zfit.Phys
