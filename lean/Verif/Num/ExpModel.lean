import Verif.Common.Py
import Mathlib.Analysis.SpecialFunctions.Exp

/-!
# Model of the exponential pdf

/repo/zfit/models/basic.py: `Exponential` (32-206): `_unnormalized_pdf` (109-124), `_shift_x` (126-127),
`_set_numerics_data_shift` (129-152), the hooks (157-206), `_exp_integral_from_any_to_any` (209-216),
`_exp_integral_func_shifting` (219-227); /repo/zfit/core/basepdf.py: `_norm_pdf` (479-485): the unnormalised density over the
normalisation; /repo/zfit/core/basemodel.py: `_norm_integrate` (the integral over the normalisation), integrals over
several pieces are added up.

Numbers are real; a NaN is `none` (division of zero by zero).  A space is its list of intervals; the empty list is a space
without limits or with limits `False` (`if limits:` is then false).
-/

namespace Zfit.Num

open Zfit

/-- Intervals (lower, upper). -/
abbrev Pieces := List (ℝ × ℝ)

/-- `calc_numerics_data_shift` (133-144): the middle between the smallest lower and the largest upper limit. -/
noncomputable def shiftOf (limits : Pieces) : ℝ :=
  match limits with
  | [] => 0
  | p :: rest => (rest.foldl (fun m q => max m q.2) p.2 + rest.foldl (fun m q => min m q.1) p.1) / 2

/-- `with self._set_numerics_data_shift(limits): body` (129-152).  The generator has no `try`: when the body raises, the old
value is not put back. -/
noncomputable def withShift {α : Type} (limits : Pieces) (body : ℝ → Except Err α) (shift : ℝ) : Except Err α × ℝ :=
  if limits = [] then (body shift, shift)
  else
    match body (shiftOf limits) with
    | .ok v => (.ok v, shift)
    | .error e => (.error e, shiftOf limits)

/-- `_unnormalized_pdf` (109-124). -/
noncomputable def expUnnorm (lam shift x : ℝ) : ℝ := Real.exp (lam * (x - shift))

/-- `_exp_integral_func_shifting` (219-227); for `lambda = 0` infinity minus infinity. -/
noncomputable def expPiece (lam shift : ℝ) (p : ℝ × ℝ) : Option ℝ :=
  if lam = 0 then none
  else some (Real.exp (lam * (p.2 - shift)) / lam - Real.exp (lam * (p.1 - shift)) / lam)

/-- The integral over all pieces (basemodel.py `_limits_analytic_integrate`: one by one, added up). -/
noncomputable def expIntegral (lam shift : ℝ) : Pieces → Option ℝ
  | [] => some 0
  | p :: rest => do
    let a ← expPiece lam shift p
    let b ← expIntegral lam shift rest
    return a + b

/-- `a / b` with NaN for `0 / 0` and infinities, which do not occur here with proper norms. -/
noncomputable def nanDiv (a b : Option ℝ) : Option ℝ := do
  let a ← a
  let b ← b
  if b = 0 then none else return a / b

/-- A call of the pdf.  `fails`: something in the body raises (an assertion on the values, an interrupt, …). -/
inductive ExpCall where
  | pdf (x : ℝ) (norm : Pieces) (fails : Option Err)
  | integrate (limits norm : Pieces) (fails : Option Err)

/-- `pdf` (196-198) and `integrate` (157-163): the shift is set to the norm; without norm the unnormalised value. -/
noncomputable def expCall (lam : ℝ) (shift : ℝ) : ExpCall → Except Err (Option ℝ) × ℝ
  | .pdf x norm fails =>
    withShift norm (fun s => match fails with
      | some e => .error e
      | none => .ok (if norm = [] then some (expUnnorm lam s x) else nanDiv (some (expUnnorm lam s x)) (expIntegral lam s norm)))
      shift
  | .integrate limits norm fails =>
    withShift norm (fun s => match fails with
      | some e => .error e
      | none => .ok (if norm = [] then expIntegral lam s limits
          else nanDiv (expIntegral lam s limits) (expIntegral lam s norm)))
      shift

/-- A pdf starts with shift zero (96; the call in line 107 is a context manager that is never entered) and is called any
number of times. -/
noncomputable def expHistory (lam : ℝ) (calls : List ExpCall) : ℝ := calls.foldl (fun s c => (expCall lam s c).2) 0

end Zfit.Num
