import Verif.Common.Py
import Verif.Num.PolyModel

/-!
# Model of the Bernstein pdf

/repo/zfit/models/polynomials.py: `rescale_zero_one` (874-886), `de_casteljau` (889-902), `bernstein_shape` (905-906),
`Bernstein` (909-980), `_coeffs_int` (1002-1008), `bernstein_integral_from_xmin_to_x` (1011-1015), `func_integral_bernstein`
(1018-1026).  Numbers are real.
-/

namespace Zfit.Num

open Zfit

/-- `rescale_zero_one(x, limits)` (885-886). -/
noncomputable def rescaleZeroOne (m : PolyPdf) (x : ℝ) : ℝ := (x - m.lo) / (m.hi - m.lo)

/-- `_polynomials_rescale` of Bernstein (956-959). -/
noncomputable def bernRescale (m : PolyPdf) (x : ℝ) : ℝ := if m.scale then rescaleZeroOne m x else x

/-- The inner loop (898-899), in place: `beta[k] = beta[k] * (1 - x) + beta[k + 1] * x` for `k` in `range(n - j)`. -/
noncomputable def casteljauInner (x : ℝ) (beta : List ℝ) (n j : ℕ) : List ℝ :=
  (List.range (n - j)).foldl (fun beta k => beta.set k (beta.getD k 0 * (1 - x) + beta.getD (k + 1) 0 * x)) beta

/-- `de_casteljau(x, coeffs)` (890-902).  (For one coefficient the result is multiplied by one.) -/
noncomputable def deCasteljau (x : ℝ) (coeffs : List ℝ) : Except Err ℝ :=
  let n := coeffs.length
  if n < 1 then .error .valueError
  else
    let beta := (List.range' 1 (n - 1)).foldl (fun beta j => casteljauInner x beta n j) coeffs
    let beta := if n = 1 then beta.set 0 (beta.getD 0 0 * 1) else beta
    .ok (beta.getD 0 0)

/-- `_pdf` (970-980). -/
noncomputable def bernUnnormalized (m : PolyPdf) (coeffs : List ℝ) (x : ℝ) : Except Err ℝ := deCasteljau (bernRescale m x) coeffs

/-- The loops of `_coeffs_int` (1003-1007): `r[j] += coeffs[k]`. -/
noncomputable def coeffsIntLoop (coeffs : List ℝ) : List ℝ :=
  (List.range' 1 coeffs.length).foldl
    (fun r j => (List.range j).foldl (fun r k => r.set j (r.getD j 0 + coeffs.getD k 0)) r)
    (List.replicate (coeffs.length + 1) 0)

/-- `_coeffs_int(coeffs)` (1002-1008). -/
noncomputable def coeffsInt (coeffs : List ℝ) : List ℝ := (coeffsIntLoop coeffs).map fun r => r / coeffs.length

/-- `bernstein_integral_from_xmin_to_x` (1011-1015): always rescales. -/
noncomputable def bernFromMin (m : PolyPdf) (coeffs : List ℝ) (x : ℝ) : Except Err ℝ := do
  let v ← deCasteljau (rescaleZeroOne m x) (coeffsInt coeffs)
  return v * (m.hi - m.lo)

/-- `func_integral_bernstein` (1018-1026). -/
noncomputable def bernIntegral (m : PolyPdf) (coeffs : List ℝ) (lower upper : ℝ) : Except Err ℝ := do
  let u ← bernFromMin m coeffs upper
  let l ← bernFromMin m coeffs lower
  return u - l

end Zfit.Num
