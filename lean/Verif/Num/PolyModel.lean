import Mathlib.Data.Real.Basic

/-!
# Model of the polynomial pdfs

/repo/zfit/models/polynomials.py: `RecursivePolynomial` (48-146), `create_poly` (166-169), `do_recurrence` (172-176), the
recurrences and analytic integrals of Legendre (179-238), Chebyshev (336-480), Chebyshev2 (486-595), Laguerre (602-747) and
Hermite (753-867).

Numbers are real, tensors of points are single points (all operations are elementwise); the dictionaries `c_0, c_1, …` of
coefficients are lists (`convert_coeffs_dict_to_list`, 1033-1041; `params` holds the coefficients only, the yield is not in
it).
-/

namespace Zfit.Num

/-- The space of a pdf and whether scaling is applied (117-120). -/
structure PolyPdf where
  lo : ℝ
  hi : ℝ
  scale : Bool

/-- `_polynomials_rescale` (122-125) with `rescale_minus_plus_one` (34-45). -/
noncomputable def PolyPdf.rescale (m : PolyPdf) (x : ℝ) : ℝ :=
  if m.scale then (2 * x - m.lo - m.hi) / (m.hi - m.lo) else x

/-- `do_recurrence(x, polys, degree, recurrence)` (172-176): `polys[-1]` and `polys[-2]` of the growing list. -/
noncomputable def doRecurrence (x : ℝ) (p0 p1 : ℝ) (degree : ℕ) (recurrence : ℝ → ℝ → ℕ → ℝ → ℝ) : List ℝ :=
  (List.range' 1 (degree - 1)).foldl
    (fun polys i => polys ++ [recurrence (polys.getD (polys.length - 1) 0) (polys.getD (polys.length - 2) 0) i x]) [p0, p1]

/-- `create_poly(x, polys, coeffs, recurrence)` (166-169). -/
noncomputable def createPoly (x : ℝ) (p0 p1 : ℝ) (coeffs : List ℝ) (recurrence : ℝ → ℝ → ℕ → ℝ → ℝ) : ℝ :=
  (List.zipWith (fun c p => c * p) coeffs (doRecurrence x p0 p1 (coeffs.length - 1) recurrence)).sum

/-- `legendre_recurrence` (183-189). -/
noncomputable def legendreRecurrence (p1 p2 : ℝ) (n : ℕ) (x : ℝ) : ℝ := ((2 * n + 1) * (x * p1) - n * p2) / (n + 1)

/-- `legendre_shape` (192-193). -/
noncomputable def legendreShape (x : ℝ) (coeffs : List ℝ) : ℝ := createPoly x 1 x coeffs legendreRecurrence

/-- `legendre_integral` (196-238). -/
noncomputable def legendreIntegral (m : PolyPdf) (coeffs : List ℝ) (lower upper : ℝ) : ℝ :=
  let lower := m.rescale lower
  let upper := m.rescale upper
  let integral0 := coeffs.getD 0 0 * (upper - lower)
  let degree := coeffs.length - 1
  let indefinite := fun limit : ℝ =>
    let polys := doRecurrence limit 1 limit (degree + 1) legendreRecurrence
    ((List.range' 1 degree).map fun d =>
      coeffs.getD d 0 * (polys.getD (d + 1) 0 - polys.getD (d - 1) 0) / (2 * d + 1)).sum
  (if degree = 0 then integral0 else indefinite upper - indefinite lower + integral0) * (1 / 2 * (m.hi - m.lo))

/-- `chebyshev_recurrence` (340-345). -/
noncomputable def chebyshevRecurrence (p1 p2 : ℝ) (_ : ℕ) (x : ℝ) : ℝ := 2 * (x * p1) - p2

/-- `chebyshev_shape` (348-349). -/
noncomputable def chebyshevShape (x : ℝ) (coeffs : List ℝ) : ℝ := createPoly x 1 x coeffs chebyshevRecurrence

/-- `func_integral_chebyshev1` (445-480). -/
noncomputable def chebyshevIntegral (m : PolyPdf) (coeffs : List ℝ) (lower upper : ℝ) : ℝ :=
  let lower := m.rescale lower
  let upper := m.rescale upper
  let degree := coeffs.length - 1
  let integral := coeffs.getD 0 0 * (upper - lower)
  let integral := if degree ≥ 1 then integral + coeffs.getD 1 0 * (1 / 2) * (upper ^ 2 - lower ^ 2) else integral
  let indefinite := fun limit : ℝ =>
    let polys := doRecurrence limit 1 limit (degree + 1) chebyshevRecurrence
    ((List.range' 2 (degree - 1)).map fun d =>
      coeffs.getD d 0 * (d * polys.getD (d + 1) 0 / ((d : ℝ) ^ 2 - 1) - limit * polys.getD d 0 / (d - 1))).sum
  let integral := if degree ≥ 2 then integral + (indefinite upper - indefinite lower) else integral
  integral * (1 / 2 * (m.hi - m.lo))

/-- `chebyshev2_shape` (489-490). -/
noncomputable def chebyshev2Shape (x : ℝ) (coeffs : List ℝ) : ℝ := createPoly x 1 (x * 2) coeffs chebyshevRecurrence

/-- `func_integral_chebyshev2` (570-595): coefficient `n` becomes coefficient `n + 1`, divided by `n + 1`. -/
noncomputable def chebyshev2Integral (m : PolyPdf) (coeffs : List ℝ) (lower upper : ℝ) : ℝ :=
  let coeffs1 := 0 :: coeffs.mapIdx fun n c => c / ((n : ℝ) + 1)
  (chebyshevShape (m.rescale upper) coeffs1 - chebyshevShape (m.rescale lower) coeffs1) * (1 / 2 * (m.hi - m.lo))

/-- `generalized_laguerre_recurrence_factory` (609-618). -/
noncomputable def laguerreRecurrence (alpha : ℝ) (p1 p2 : ℝ) (n : ℕ) (x : ℝ) : ℝ :=
  ((2 * n + 1 + alpha - x) * p1 - (n + alpha) * p2) / (n + 1)

/-- `generalized_laguerre_shape_factory` (624-631) with the first two polynomials (602-603). -/
noncomputable def laguerreShape (alpha : ℝ) (x : ℝ) (coeffs : List ℝ) : ℝ :=
  createPoly x 1 (1 + alpha - x) coeffs (laguerreRecurrence alpha)

/-- `func_integral_laguerre` (713-747): coefficient `n` becomes coefficient `n + 1` of the polynomials with alpha = -1. -/
noncomputable def laguerreIntegral (m : PolyPdf) (coeffs : List ℝ) (lower upper : ℝ) : ℝ :=
  let coeffsUp := 0 :: coeffs
  (-1 * laguerreShape (-1) (m.rescale upper) coeffsUp - -1 * laguerreShape (-1) (m.rescale lower) coeffsUp)
    * (1 / 2 * (m.hi - m.lo))

/-- `hermite_recurrence` (757-762). -/
noncomputable def hermiteRecurrence (p1 p2 : ℝ) (n : ℕ) (x : ℝ) : ℝ := 2 * (x * p1 - n * p2)

/-- `hermite_shape` (765-766). -/
noncomputable def hermiteShape (x : ℝ) (coeffs : List ℝ) : ℝ := createPoly x 1 (2 * x) coeffs hermiteRecurrence

/-- `func_integral_hermite` (843-867): coefficient `n` becomes coefficient `n + 1`, divided by `2 (n + 1)`. -/
noncomputable def hermiteIntegral (m : PolyPdf) (coeffs : List ℝ) (lower upper : ℝ) : ℝ :=
  let coeffs1 := 0 :: coeffs.mapIdx fun n c => c / (((n : ℝ) + 1) * 2)
  (hermiteShape (m.rescale upper) coeffs1 - hermiteShape (m.rescale lower) coeffs1) * (1 / 2 * (m.hi - m.lo))

/-- The five families. -/
inductive Family | legendre | chebyshev | chebyshev2 | laguerre | hermite
  deriving DecidableEq, Repr

/-- `_poly_func` (322-325, 434-437, 559-562, 702-705, 832-835). -/
noncomputable def Family.shape : Family → ℝ → List ℝ → ℝ
  | .legendre => legendreShape
  | .chebyshev => chebyshevShape
  | .chebyshev2 => chebyshev2Shape
  | .laguerre => laguerreShape 0
  | .hermite => hermiteShape

/-- `_pdf` (136-141): the unnormalised density at `x`. -/
noncomputable def Family.unnormalized (f : Family) (m : PolyPdf) (coeffs : List ℝ) (x : ℝ) : ℝ :=
  f.shape (m.rescale x) coeffs

/-- The registered analytic integral. -/
noncomputable def Family.integral : Family → PolyPdf → List ℝ → ℝ → ℝ → ℝ
  | .legendre => legendreIntegral
  | .chebyshev => chebyshevIntegral
  | .chebyshev2 => chebyshev2Integral
  | .laguerre => laguerreIntegral
  | .hermite => hermiteIntegral

end Zfit.Num
