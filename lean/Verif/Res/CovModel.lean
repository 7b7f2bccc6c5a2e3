import Verif.Common.Py
import Mathlib.Data.Nat.Notation
import Mathlib.Algebra.Order.Field.Rat
import Mathlib.Algebra.Order.Group.Unbundled.Abs

/-!
# Model of covariances of fit results

/repo/zfit/minimizers/errors.py: `dict_to_matrix` (444-458), `matrix_to_dict` (461-475); /repo/zfit/minimizers/fitresult.py:
`_check_get_uncached_params` (516-542), `hesse` (1215-1285), `errors` (1383-1402), `covariance` (1447-1478).

Parameters are numbers.  A matrix is a function of two indices together with its size, the number of parameters.
-/

namespace Zfit.Res

open Zfit

/-! ## Matrices and dictionaries -/

/-- The order in which the loops visit index pairs: `for i in range(n): for j in range(i, n)`
(errors.py:450-453, 467-470). -/
def upper (n : ℕ) : List (ℕ × ℕ) :=
  (List.range n).flatMap fun i => (List.range (n - i)).map fun k => (i, i + k)

/-- One turn of the loops of `matrix_to_dict` (errors.py:468-473). -/
def enter {K : Type} (params : List ℕ) (m : ℕ → ℕ → K) (d : List ((ℕ × ℕ) × K)) (ij : ℕ × ℕ) : List ((ℕ × ℕ) × K) :=
  let pi := params.getD ij.1 0
  let pj := params.getD ij.2 0
  let d := dictSet d (pi, pj) (m ij.1 ij.2)
  if ij.1 ≠ ij.2 then dictSet d (pj, pi) (m ij.1 ij.2) else d

/-- `matrix_to_dict` (errors.py:461-475). -/
def matrixToDict {K : Type} (params : List ℕ) (m : Option (ℕ → ℕ → K)) : List ((ℕ × ℕ) × K) :=
  match m with
  | none => []
  | some m => (upper params.length).foldl (enter params m) []

/-- One turn of the loops of `dict_to_matrix` (errors.py:451-456); the matrix is what has been entered so far. -/
def fill {K : Type} (params : List ℕ) (d : List ((ℕ × ℕ) × K)) (m : List ((ℕ × ℕ) × K)) (ij : ℕ × ℕ) :
    Except Err (List ((ℕ × ℕ) × K)) :=
  match dictGet d (params.getD ij.1 0, params.getD ij.2 0) with
  | none => .error .keyError
  | some v =>
    let m := dictSet m ij v
    .ok (if ij.1 ≠ ij.2 then dictSet m (ij.2, ij.1) v else m)

/-- `dict_to_matrix` (errors.py:444-458): `None` for an empty dictionary.  The matrix is given by its entries; an index
pair that is not there would be uninitialised memory (`np.empty`). -/
def dictToMatrix {K : Type} (params : List ℕ) (d : List ((ℕ × ℕ) × K)) : Except Err (Option (List ((ℕ × ℕ) × K))) :=
  if d.isEmpty then .ok none
  else ((upper params.length).foldlM (fill params d) []).map some

/-- The restriction to some parameters in `FitResult.covariance` (fitresult.py:1459): `{k: cov.get(k) for k in
product(params, params)}`; `none` is Python's `None`, which becomes NaN in a matrix. -/
def restrict {K : Type} (sub : List ℕ) (d : List ((ℕ × ℕ) × K)) : List ((ℕ × ℕ) × Option K) :=
  (sub.flatMap fun p => sub.map fun q => (p, q)).foldl (fun r k => dictSet r k (dictGet d k)) []

/-! ## The cache of covariances and the stored errors -/

/-- `WeightCorr` (errors.py): no correction, asymptotic, effective size. -/
inductive Corr
  | off
  | asymptotic
  | effsize
  deriving DecidableEq, Repr

/-- What a covariance is computed from: `C` is a covariance (a dictionary of all parameters). -/
structure Fit (C : Type) where
  /-- Some dataset is unbinned and weighted; `loss.is_weighted`. -/
  weighted : Bool
  /-- `method(result=self, params=params)`, by method. -/
  plain : ℕ → C
  /-- `covariance_with_weights(hinv=method, …, weightcorr)`. -/
  corrected : ℕ → Corr → C
  /-- The names in `_hesse_methods` (all of them are numbers here). -/
  known : ℕ → Bool
  /-- `_default_hesse`. -/
  default : ℕ

/-- What is stored for a parameter under a name: an entry with `cl` and, for `hesse`, `weightcorr`; or the text
"Invalid, a new minimum was found." -/
inductive Entry
  | error (cl : Rat) (corr : Option Corr)
  | text
  deriving DecidableEq, Repr

/-- The state of a result: `_covariance_dict` and, by name, what is stored (for all parameters alike: the model asks for
all parameters). -/
structure Cached (C : Type) where
  cov : List (ℕ × C)
  entries : List (ℕ × Entry)

/-- `FitResult._covariance` (fitresult.py:1465-1478). -/
def Fit.compute {C : Type} (f : Fit C) (method : ℕ) (w : Corr) : Except Err C :=
  if f.known method then .ok (if w ≠ .off ∧ f.weighted = true then f.corrected method w else f.plain method)
  else .error .keyError

/-- `FitResult.covariance` (fitresult.py:1447-1463), for all parameters, as a dictionary. -/
def Fit.covariance {C : Type} (f : Fit C) (s : Cached C) (method : Option ℕ) (w : Option Corr) : Cached C × Except Err C :=
  let method := method.getD f.default
  let w := w.getD .asymptotic
  match dictGet s.cov method with
  | some c => (s, .ok c)
  | none =>
    match f.compute method w with
    | .ok c => ({ s with cov := dictSet s.cov method c }, .ok c)
    | .error e => (s, .error e)

/-- `math.isclose(a, b, abs_tol=3e-3 * (1 - b))`, with the default `rel_tol=1e-9` (fitresult.py:522). -/
def isclose (a b : Rat) : Bool :=
  decide (|a - b| ≤ max (1 / 1000000000 * max |a| |b|) (3 / 1000 * (1 - b)))

/-- `_check_get_uncached_params` (fitresult.py:516-542): everything counts as uncached; only the name can be refused.
The message about another weight correction reads `errordict['weightcorr']`, which entries of `errors` do not have. -/
def checkName {C : Type} (s : Cached C) (name : ℕ) (cl : Rat) (w : Option Corr) : Except Err Unit :=
  match dictGet s.entries name with
  | none => .ok ()
  | some .text => .error .typeError
  | some (.error cl' w') =>
    if !isclose cl' cl then .error .nameError
    else
      match w with
      | none => .ok ()
      | some w => if w ≠ w'.getD .off then (if w'.isNone then .error .keyError else .error .nameError) else .ok ()

/-- `FitResult.hesse` (fitresult.py:1215-1266) with a name and a method; the answer is the covariance the errors are
computed from (`error = sqrt(cov) * sigma`, 1272-1285). -/
def Fit.hesse {C : Type} (f : Fit C) (s : Cached C) (method : ℕ) (name : ℕ) (cl : Rat) (w : Option Corr) :
    Cached C × Except Err C :=
  if cl ≥ 1 then (s, .error .valueError)
  else
    let w := w.getD (if f.weighted then .asymptotic else .off)
    if w ≠ .off ∧ f.weighted = false then (s, .error .valueError)
    else
      match checkName s name cl (some w) with
      | .error e => (s, .error e)
      | .ok _ =>
        match f.covariance s (some method) (some w) with
        | (s', .error e) => (s', .error e)
        | (s', .ok c) => ({ s' with entries := dictSet s'.entries name (.error cl (some w)) }, .ok c)

/-- `FitResult.errors` (fitresult.py:1381-1402), as far as the stored entries are concerned; the method finds a new minimum
or not. -/
def errorsCall {C : Type} (s : Cached C) (name : ℕ) (cl : Rat) (newMinimum : Bool) : Cached C × Except Err Unit :=
  match checkName s name cl none with
  | .error e => (s, .error e)
  | .ok _ => ({ s with entries := dictSet s.entries name (if newMinimum then .text else .error cl none) }, .ok ())

/-- What can be asked of a result. -/
inductive Call
  | covariance (method : Option ℕ) (w : Option Corr)
  | hesse (method : ℕ) (name : ℕ) (cl : Rat) (w : Option Corr)
  | errors (name : ℕ) (cl : Rat) (newMinimum : Bool)
  deriving DecidableEq, Repr

/-- The state after a call. -/
def Fit.after {C : Type} (f : Fit C) (s : Cached C) : Call → Cached C
  | .covariance m w => (f.covariance s m w).1
  | .hesse m name cl w => (f.hesse s m name cl w).1
  | .errors name cl new => (errorsCall s name cl new).1

end Zfit.Res
