import Mathlib.LinearAlgebra.Matrix.NonsingularInverse
import Mathlib.Analysis.SpecialFunctions.Pow.Real

/-! Model of zfit/z/interpolate_spline.py (polyharmonic splines), zfit/models/morphing.py (`SplineMorphingPDF`) and
zfit/models/interpolation.py (`SplinePDF`).

Real numbers instead of floats; one column of values at a time (the code treats the columns of `train_values` alike, `morph`
below does so for all of them); no batch dimension (it has the size one in both uses). -/

namespace Zfit.Spline

open Matrix

/-- zfit/z/interpolate_spline.py 53 `EPSILON`. -/
noncomputable def eps : ℝ := 1 / 10 ^ 10

section

variable {ι κ : Type} [Fintype ι] [DecidableEq ι] [Fintype κ] [DecidableEq κ]

/-- zfit/z/interpolate_spline.py 56-81 `_cross_squared_distance_matrix` and 84-105 `_pairwise_squared_distance_matrix`, one entry. -/
def sqDist (x y : κ → ℝ) : ℝ := (∑ k, x k ^ 2) - 2 * (∑ k, x k * y k) + ∑ k, y k ^ 2

open Classical in
/-- zfit/z/interpolate_spline.py 222-251 `_phi`, of a squared distance. -/
noncomputable def phi (order : ℕ) (r : ℝ) : ℝ :=
  if order = 1 then Real.sqrt (max r eps)
  else if order = 2 then 0.5 * r * Real.log (max r eps)
  else if order = 4 then 0.5 * r ^ 2 * Real.log (max r eps)
  else if order % 2 = 0 then 0.5 * max r eps ^ (0.5 * order : ℝ) * Real.log (max r eps)
  else max r eps ^ (0.5 * order : ℝ)

open Classical in
/-- zfit/z/interpolate_spline.py 154-157 `matrix_a` in `_solve_interpolation`. -/
noncomputable def matrixA (c : ι → κ → ℝ) (order : ℕ) (reg : ℝ) : Matrix ι ι ℝ :=
  let a := Matrix.of fun i j => phi order (sqDist (c i) (c j))
  if reg > 0 then a + reg • (1 : Matrix ι ι ℝ) else a

/-- zfit/z/interpolate_spline.py 161-162 `matrix_b`: the points with a column of ones. -/
def matrixB (c : ι → κ → ℝ) : Matrix ι (κ ⊕ Unit) ℝ := Matrix.of fun i => Sum.elim (c i) fun _ => 1

/-- zfit/z/interpolate_spline.py 164-170 `lhs`. -/
noncomputable def lhs (c : ι → κ → ℝ) (order : ℕ) (reg : ℝ) : Matrix (ι ⊕ (κ ⊕ Unit)) (ι ⊕ (κ ⊕ Unit)) ℝ :=
  Matrix.fromBlocks (matrixA c order reg) (matrixB c) (matrixB c)ᵀ 0

/-- zfit/z/interpolate_spline.py 172-173 `rhs`. -/
def rhs (f : ι → ℝ) : ι ⊕ (κ ⊕ Unit) → ℝ := Sum.elim f fun _ => 0

open Classical in
/-- zfit/z/interpolate_spline.py 108-181 `_solve_interpolation`. `tf.linalg.solve` raises an error for a matrix that cannot be
inverted (`none`). -/
noncomputable def solveInterpolation (c : ι → κ → ℝ) (f : ι → ℝ) (order : ℕ) (reg : ℝ) : Option ((ι → ℝ) × (κ ⊕ Unit → ℝ)) :=
  if IsUnit (lhs c order reg).det then
    let wv := (lhs c order reg)⁻¹ *ᵥ rhs f
    some (fun i => wv (Sum.inl i), fun k => wv (Sum.inr k))
  else none

/-- zfit/z/interpolate_spline.py 184-219 `_apply_interpolation`, one query point. -/
noncomputable def applyInterpolation (x : κ → ℝ) (c : ι → κ → ℝ) (w : ι → ℝ) (v : κ ⊕ Unit → ℝ) (order : ℕ) : ℝ :=
  let rbfTerm := ∑ i, phi order (sqDist x (c i)) * w i
  let linearTerm := ∑ k, Sum.elim x (fun _ => 1) k * v k
  rbfTerm + linearTerm

/-- zfit/z/interpolate_spline.py 254-328 `interpolate_spline`. -/
noncomputable def interpolate (c : ι → κ → ℝ) (f : ι → ℝ) (x : κ → ℝ) (order : ℕ) (reg : ℝ := 0) : Option ℝ :=
  match solveInterpolation c f order reg with
  | some (w, v) => some (applyInterpolation x c w v order)
  | none => none

end

/-! ### Morphing -/

/-- The exceptions used here. -/
inductive Err
  | valueError
  | typeError
  /-- `tf.linalg.solve`: the matrix is not invertible. -/
  | invalidArgument
  deriving DecidableEq

/-- zfit/models/morphing.py 22-37 `spline_interpolator`: every bin is interpolated by itself, with the points `alphas`. The
densities are given together with their `alpha`, as in the dictionary of the PDF. -/
noncomputable def morph {β : Type} (hists : List (ℝ × (β → ℝ))) (alpha : ℝ) : Except Err (β → ℝ) :=
  let alphas : Fin hists.length → Unit → ℝ := fun i _ => (hists.get i).1
  open Classical in
  if IsUnit (lhs alphas 2 0).det then
    .ok fun b => (interpolate alphas (fun i => (hists.get i).2 b) (fun _ => alpha) 2).getD 0
  else .error .invalidArgument

/-- A template: a binned PDF that is extended. -/
structure Template (β : Type) where
  relCounts : β → ℝ
  yield : ℝ

/-- `counts` of a template: the relative counts times the yield (zfit/core/binnedpdf.py, area `BinPdf`). -/
def Template.counts {β : Type} (t : Template β) : β → ℝ := fun b => t.yield * t.relCounts b

/-- zfit/models/morphing.py 74-81 `SplineMorphingPDF.__init__`: a list of PDFs. -/
def fromList {α : Type} (hists : List α) : Except Err (List (ℝ × α)) :=
  if hists.length ≠ 3 then .error .valueError
  else .ok ((List.range hists.length).zip hists |>.map fun p => ((p.1 : ℝ) - 1, p.2))

/-- zfit/models/morphing.py 132-138 `_counts`, if the yield was created automatically. -/
noncomputable def counts {β : Type} (hists : List (ℝ × Template β)) (alpha : ℝ) : Except Err (β → ℝ) :=
  morph (hists.map fun h => (h.1, h.2.counts)) alpha

/-- zfit/models/morphing.py 140-144 `_rel_counts`. -/
noncomputable def relCounts {β : Type} (hists : List (ℝ × Template β)) (alpha : ℝ) : Except Err (β → ℝ) :=
  morph (hists.map fun h => (h.1, h.2.relCounts)) alpha

/-- zfit/models/morphing.py 108-127: the yield created automatically. -/
noncomputable def autoYield {β : Type} (hists : List (ℝ × Template β)) (alpha : ℝ) : Except Err ℝ :=
  (morph (hists.map fun h => (h.1, fun _ : Unit => h.2.yield)) alpha).map fun f => f ()

/-- An argument of the constructor: something with `hist.axes`, `hist.values()`, a binned PDF, or something else. -/
inductive Arg (β : Type)
  | histogram (t : Template β)
  | pdf (t : Template β)
  | other

/-- zfit/models/morphing.py 83-92 `SplineMorphingPDF.__init__`: the loop over the dictionary of the user. Returns the dictionary as it
is afterwards, which is the same object, and the exception. -/
def convertLoop {β : Type} : List (ℝ × Arg β) → List (ℝ × Arg β) × Option Err
  | [] => ([], none)
  | (a, .histogram t) :: rest => let r := convertLoop rest; ((a, .pdf t) :: r.1, r.2)
  | (a, .pdf t) :: rest => let r := convertLoop rest; ((a, .pdf t) :: r.1, r.2)
  | (a, .other) :: rest => ((a, .other) :: rest, some .typeError)

/-! ### SplinePDF -/

/-- zfit/models/interpolation.py 91-98 `SplinePDF._pdf` of a binned PDF in one dimension with bin centres `c` and density `f`:
the order is always three. -/
noncomputable def splinePdf {n : ℕ} (c f : Fin n → ℝ) (_order : ℕ) (x : ℝ) : Option ℝ :=
  interpolate (fun i (_ : Unit) => c i) f (fun _ => x) 3

/-- zfit/models/interpolation.py 71-88 `SplinePDF._ext_pdf` with the yield of the PDF; any number of dimensions. `f` is the density
of the binned PDF before it is multiplied with the yield. -/
noncomputable def splineExtPdf {n : ℕ} {κ : Type} [Fintype κ] [DecidableEq κ] (c : Fin n → κ → ℝ) (f : Fin n → ℝ) (yield : ℝ) (order : ℕ) (x : κ → ℝ) :
    Option ℝ :=
  interpolate c (fun i => yield * f i) x order

end Zfit.Spline
