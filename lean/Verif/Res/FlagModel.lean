import Verif.Param.Model

/-!
# Model of the flags of a `FitResult`

/repo/zfit/minimizers/fitresult.py: construction (411-462), the constructors from the results of the wrapped libraries
(634-653, 729-780, 845-898, 981-1044), `converged`, `valid`, `params_at_limit` (1125-1135) and what the methods do to the
flags afterwards.  Only the arguments that decide about the flags are kept; messages, info and approximations are not
modelled.  Python's `None` is `none`.
-/

namespace Zfit.Res

open Zfit Zfit.Par

/-- The truth value of `None`, `True`, `False`. -/
def truthy : Option Bool → Bool
  | some b => b
  | none => false

/-- Python's `a and b`. -/
def pyAnd (a b : Option Bool) : Option Bool := if truthy a then b else a

/-- What is stored of the flags: `_valid`, `_converged`, `_params_at_limit` (fitresult.py:440-450). -/
structure Flags where
  valid : Option Bool
  converged : Option Bool
  atLimit : Bool
  deriving DecidableEq, Repr

/-- `param.at_limit` (parameter.py:473-480): with the value the parameter has now. -/
def atLimitNow (s : Store) (i : Nat) : Bool := (s i).atLimit (s i).value false

/-- `FitResult.__init__` (fitresult.py:413-450): the `params` are given with the fitted values, but `at_limit` asks the
parameters themselves. -/
def construct (s : Store) (params : List (Nat × Rat)) (valid converged : Option Bool) : Flags :=
  let converged := if converged.isNone && truthy valid then some true else converged
  let atLimit := params.any fun iv => atLimitNow s iv.1
  ⟨if atLimit then some false else valid, converged, atLimit⟩

/-- `FitResult.valid` (fitresult.py:1130-1131). -/
def Flags.isValid (f : Flags) : Option Bool := pyAnd (pyAnd f.valid (some (!f.atLimit))) f.converged

/-- `valid and not evaluator.maxiter_reached` if there is an evaluator (fitresult.py:637-638, 761-762, 880-881,
1017-1018). -/
def notMaxiter (valid : Option Bool) (evaluator : Option Bool) : Option Bool :=
  match evaluator with
  | none => valid
  | some reached => pyAnd valid (some (!reached))

/-- How a result is made.  `evaluator` is `maxiter_reached` of the evaluator, if one is given. -/
inductive Make
  /-- `FitResult(…)`. -/
  | plain (valid converged : Option Bool)
  /-- `from_ipopt` (fitresult.py:634-653). -/
  | ipopt (valid converged : Option Bool) (evaluator : Option Bool)
  /-- `from_minuit` (fitresult.py:729-780); `known`: the minimiser is zfit's `Minuit` or iminuit's. -/
  | minuit (known : Bool) (aboveMaxEdm minuitValid : Bool) (valid converged : Option Bool) (evaluator : Option Bool)
  /-- `from_scipy` (fitresult.py:845-898); `success`: the entry of scipy's result, if present. -/
  | scipy (success : Option Bool) (valid : Option Bool) (evaluator : Option Bool)
  /-- `from_nlopt` (fitresult.py:981-1044); `status`: `opt.last_optimize_result()`. -/
  | nlopt (status : Int) (valid converged : Option Bool) (evaluator : Option Bool)
  deriving DecidableEq, Repr

/-- The keys of `messages` (fitresult.py:991-1003). -/
def nloptStatuses : List Int := [1, 2, 3, 4, 5, 6, -1, -2, -3, -4, -5]

/-- The constructors of `FitResult`; `params`: the parameters with their fitted values. -/
def make (s : Store) (params : List (Nat × Rat)) : Make → Except Err Flags
  | .plain valid converged => .ok (construct s params valid converged)
  | .ipopt valid converged ev =>
    let valid := if converged.isNone then valid else pyAnd valid converged
    .ok (construct s params (notMaxiter valid ev) converged)
  | .minuit known aboveMaxEdm minuitValid valid converged ev =>
    if known then
      let converged := if converged.isNone then some (!aboveMaxEdm) else pyAnd converged (some (!aboveMaxEdm))
      let valid := if valid.isNone then some minuitValid else pyAnd (some minuitValid) valid
      .ok (construct s params (notMaxiter valid ev) converged)
    else .error .valueError
  | .scipy success valid ev =>
    let converged := if success.isNone then valid else success
    .ok (construct s params (notMaxiter valid ev) converged)
  | .nlopt status valid converged ev =>
    let converged := decide (1 ≤ status ∧ status ≤ 4) && decide (converged ≠ some false)
    if status ∈ nloptStatuses then
      .ok (construct s params (notMaxiter (pyAnd valid (some converged)) ev) (some converged))
    else .error .keyError

/-- `maxiter_reached` of the evaluator given to a constructor; `false` if none is given. -/
def Make.budgetExceeded : Make → Bool
  | .plain _ _ => false
  | .ipopt _ _ ev => truthy ev
  | .minuit _ _ _ _ _ ev => truthy ev
  | .scipy _ _ ev => truthy ev
  | .nlopt _ _ _ ev => truthy ev

/-- What can be done with a result, as far as the flags are concerned: `errors` (1383-1399) sets `_valid` if a new minimum
is found; `hesse`, `covariance`, `freeze`, `with result:` and setting parameters do not touch the flags. -/
inductive Use
  | errors (newMinimum : Bool)
  | other
  deriving DecidableEq, Repr

/-- One use (fitresult.py:1394-1398). -/
def Flags.use (f : Flags) : Use → Flags
  | .errors true => { f with valid := some false }
  | .errors false => f
  | .other => f

end Zfit.Res
