import Mathlib.Analysis.Real.Pi.Bounds
import Mathlib.Analysis.Complex.Basic
import Mathlib.Topology.Algebra.Polynomial

/-! Model of the Voigt profile: zfit/models/basic.py (`Voigt`) and zfit/z/numpy.py (`faddeeva_humlicek`).

Floating point numbers are real numbers, complex128 is `ℂ`; the constants written in the code are the rational numbers
they denote.  Tensors are treated one element at a time. -/

namespace Zfit.Phys

open Complex

/-- The polynomial of zfit/z/numpy.py 88-133 (`numer`): Horner's rule with coefficients that are real and imaginary in
turn; the list has the pairs `AA[2k]`, `AA[2k+1]`. -/
noncomputable def hornerAlt : List (ℚ × ℚ) → ℂ → ℂ
  | [], _ => 0
  | (a, b) :: l, Z => (hornerAlt l Z * Z + (b : ℂ) * I) * Z + (a : ℂ)

/-- Horner's rule with real coefficients (zfit/z/numpy.py 135-137, `denom`), the lowest first. -/
noncomputable def horner : List ℚ → ℂ → ℂ
  | [], _ => 0
  | b :: l, t => horner l t * t + (b : ℂ)

/-- zfit/z/numpy.py 51-71 `AA`. -/
def coeffAA : List (ℚ × ℚ) :=
  [(46236.3358828121, -147726.58393079657), (-206562.80451354137, 281369.1590631087),
    (183092.74968253175, -184787.96830696272), (-66155.39578477248, 57778.05827983565),
    (11682.770904216826, -9442.402767960672), (-1052.8438624933142, 814.0996198624186),
    (45.94499030751872, -34.59751573708725), (-0.7616559377907136, 0.5641895835476449)]

/-- zfit/z/numpy.py 73-86 `bb`. -/
def coeffBB : List ℚ :=
  [7918.06640624997, -126689.0625, 295607.8125, -236486.25, 84459.375, -15015, 1365, -60, 1]

/-- zfit/z/numpy.py 90-93 `w`: the approximation far from the origin. -/
noncomputable def faddeevaFar (z : ℂ) : ℂ :=
  I * z * (z * z * ((1 / Real.sqrt Real.pi : ℝ) : ℂ) - (1.410474 : ℚ)) / ((0.75 : ℚ) + z * z * (z * z - (3 : ℚ)))

/-- zfit/z/numpy.py 99-137 `numer / denom`: the approximation near the origin. -/
noncomputable def faddeevaNear (z : ℂ) : ℂ :=
  let Z := z + (1.35 : ℚ) * I
  hornerAlt coeffAA Z / horner coeffBB (Z * Z)

open Classical in
/-- zfit/z/numpy.py 28-139 `faddeeva_humlicek(z, s)`. -/
noncomputable def faddeeva (z : ℂ) (s : ℝ := 10) : ℂ :=
  if |z.re| + z.im < s ∧ z.im < s then faddeevaNear z else faddeevaFar z

/-- zfit/models/basic.py 327-340 `Voigt._unnormalized_pdf`. -/
noncomputable def voigt (x m sigma gamma : ℝ) : ℝ :=
  let complexZ : ℂ := (((x - m : ℝ) : ℂ) + I * (gamma : ℂ)) / (((Real.sqrt 2 : ℝ) : ℂ) * (sigma : ℂ))
  (faddeeva complexZ).re / (sigma * Real.sqrt (2 * Real.pi))

end Zfit.Phys
