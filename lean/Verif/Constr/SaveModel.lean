import Verif.Constr.Model

/-! Model of saving and loading Gaussian constraints: zfit/core/constraint.py 335-341 (`original_init`), 383-402
(`GaussianConstraintRepr`), `to_dict`/`from_dict` of zfit/core/serialmixin.py.

What pydantic does with a field of type `list[...]` is trusted: it takes lists and tuples of numbers and rejects everything
else (numbers, arrays, lists of lists) with a `ValidationError`, which is a `ValueError`. Parameters are given by their names;
observations that are parameters are left out. -/

namespace Zfit.Constr

open Zfit

/-- What a user can write for the numbers: a number, a list or tuple of numbers, a list of lists, or a NumPy array of one or two
dimensions (`m` rows and columns). -/
inductive Arg
  | num (x : ℝ)
  | seq (l : List ℝ)
  | nested (m : ℕ) (a : ℕ → ℕ → ℝ)
  | array1 (l : List ℝ)
  | array2 (m : ℕ) (a : ℕ → ℕ → ℝ)

/-- The array the code makes of it (`znp.atleast_1d(znp.asarray(..))`, constraint.py 234-235, 252). -/
def Arg.input : Arg → Input
  | .num x => .vec 1 fun i => [x].getD i 0
  | .seq l => .vec l.length fun i => l.getD i 0
  | .nested m a => .mat m a
  | .array1 l => .vec l.length fun i => l.getD i 0
  | .array2 m a => .mat m a

/-- The numbers of an observation (`convert_to_container`, constraint.py 296, 130). -/
def Arg.numbers : Arg → List ℝ
  | .num x => [x]
  | .seq l => l
  | .array1 l => l
  | .nested _ _ => []
  | .array2 _ _ => []

/-- The arguments of `GaussianConstraint` (constraint.py 267-276). -/
structure GaussArgs where
  params : List String
  observation : Arg
  uncertainty : Option Arg
  sigma : Option Arg
  cov : Option Arg

/-- `GaussianConstraint(..)` (constraint.py 265-371); `n` is the number of parameters. -/
noncomputable def GaussArgs.make (a : GaussArgs) (n : ℕ) : Except Err (Gaussian n) :=
  gaussianConstraint n a.observation.numbers (a.uncertainty.map Arg.input) (a.sigma.map Arg.input)
    (a.cov.map Arg.input)

/-- `convert_to_container(.., tuple, ignore=np.ndarray)` (constraint.py 296-302): numbers become tuples, arrays stay. This is done
for `observation` and `uncertainty`, not for `sigma` and `cov`. -/
def Arg.contained : Arg → Arg
  | .num x => .seq [x]
  | a => a

/-- The saved constraint (`GaussianConstraintRepr`, 383-391). -/
structure GaussDoc where
  params : List String
  observation : List ℝ
  uncertainty : Option (List ℝ)
  sigma : Option (List ℝ)
  cov : Option (List ℝ)

/-- A field of type `list[..]` in pydantic. -/
def listField : Arg → Except Err (List ℝ)
  | .seq l => .ok l
  | _ => .error .valueError

/-- A field of type `Optional[list[..]]` in pydantic. -/
def optField : Option Arg → Except Err (Option (List ℝ))
  | none => .ok none
  | some a => match listField a with
    | .ok l => .ok (some l)
    | .error e => .error e

/-- `to_dict`: the fields from `original_init` (335-341, 393-397). -/
def GaussArgs.save (a : GaussArgs) : Except Err GaussDoc :=
  match listField a.observation.contained, optField (a.uncertainty.map Arg.contained), optField a.sigma, optField a.cov with
  | .ok o, .ok u, .ok s, .ok c => .ok ⟨a.params, o, u, s, c⟩
  | _, _, _, _ => .error .valueError

/-- `from_dict`: the constraint is made again from the fields. -/
def GaussDoc.load (d : GaussDoc) : GaussArgs := ⟨d.params, .seq d.observation, d.uncertainty.map .seq, d.sigma.map .seq, d.cov.map .seq⟩

end Zfit.Constr
