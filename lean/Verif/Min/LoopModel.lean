import Verif.Common.Py
import Mathlib.Data.Nat.Notation
import Mathlib.Analysis.Real.Sqrt

/-!
# Model of the minimisers' own logic

/repo/zfit/minimizers/baseminimizer.py: `BaseMinimizer.minimize` and `_call_minimize`, `BaseStepMinimizer._minimize`,
`_update_tol_inplace`. The backends, losses and criteria are not modelled: they are parameters, so that theorems hold for all of them.
-/

namespace Zfit.Min

open Zfit

/-! ## `minimize` -/

/-- How a call of `_minimize` ends (baseminimizer.py:488-517): a result, the `TypeError` of a signature without `init`,
`InitNotImplemented`, a failure with NaN or a `RuntimeError`, the exhausted budget, another exception. -/
inductive End (R : Type)
  | result (r : R)
  | noInitArgument
  | initNotImplemented
  | failed (e : Err)
  | maxiter
  | other (e : Err)

/-- The values of all parameters. -/
abbrev Values (K : Type) := ℕ → K

/-- `assign_values` (core/parameter.py) for parameters and their values. -/
def assign {K : Type} (a : List (ℕ × K)) (v : Values K) : Values K :=
  a.foldl (fun v pv => fun i => if i = pv.1 then pv.2 else v i) v

/-- The state of the world: parameter values and whether the minimiser holds the state of a minimisation (`_state is not None`). -/
structure W (K : Type) where
  vals : Values K
  stateful : Bool

/-- A minimisation: the parameters of the loss, the values given in the arguments `params` and `init` (set in `_check_convert_input`,
baseminimizer.py:326-353), the values of `init` if there is one, the backend, the result the strategy has ready after a failure
(`strategy.fit_result`) and the option `auto_update_params`. -/
structure Job (K R : Type) where
  lossParams : List ℕ
  given : List (ℕ × K)
  init : Option (List (ℕ × K))
  backend : Bool → Values K → Values K × End R
  strategyResult : Option R
  autoUpdate : Bool

/-- `_call_minimize` (baseminimizer.py:479-522). `none` is the `None` that is returned when the budget is exhausted. `fuel` is the stack
left; Python raises `RecursionError` when it is used up. -/
def callMinimize {K R : Type} (j : Job K R) : ℕ → Option (List (ℕ × K)) → Values K → Values K × Except Err (Option R)
  | 0, _, v => (v, .error .runtimeError)
  | fuel + 1, init, v =>
    match j.backend init.isSome v with
    | (v, .result r) => (v, .ok (some r))
    | (v, .noInitArgument) => callMinimize j fuel none v
    | (v, .initNotImplemented) =>
      match init with
      | some a => callMinimize j fuel none (assign a v)
      | none => (v, .error .typeError)
    | (v, .failed e) =>
      match j.strategyResult with
      | some r => (v, .ok (some r))
      | none => (v, .error e)
    | (v, .maxiter) => (v, .ok none)
    | (v, .other e) => (v, .error e)

/-- `minimize` (baseminimizer.py:475-477) with `_make_stateful` (baseminimizer.py:537-565), which has no `try/finally`. -/
def minimize {K R : Type} (j : Job K R) (fuel : ℕ) (w : W K) : W K × Except Err (Option R) :=
  let v0 := assign j.given w.vals
  match callMinimize j fuel j.init v0 with
  | (v, .error e) => (⟨v, true⟩, .error e)
  | (v, .ok r) => (⟨if j.autoUpdate then v else assign (j.lossParams.map fun p => (p, v0 p)) v, false⟩, .ok r)

/-! ## `BaseStepMinimizer` -/

/-- What the steps and the criterion do, numbered from 1: the value after the step (`none`: NaN) or an exception; whether the criterion
is met after the step or the exception of the hessian, its inversion or the criterion. -/
structure Steps (K : Type) where
  value : ℕ → Except Err (Option K)
  converged : ℕ → Except Err Bool
  tol : K
  maxiter : ℕ

/-- The result of the loop: number of steps, `valid` and `converged` (the same variable, baseminimizer.py:767-777), `status`. -/
structure StepResult where
  niter : ℕ
  valid : Bool
  converged : Bool
  status : ℕ
deriving DecidableEq

variable {K : Type} [Field K] [LinearOrder K]

/-- `abs(cur_val - last_val)` (baseminimizer.py:725), NaN if one of them is. -/
def change (cur last : Option K) : Option K :=
  match cur, last with
  | some a, some b => some |a - b|
  | _, _ => none

/-- `np.sum`, NaN if there is one. -/
def nanSum (l : List (Option K)) : Option K := l.foldr (fun x acc => match x, acc with | some a, some b => some (a + b) | _, _ => none) (some 0)

/-- `sum_changes < self.tol` (baseminimizer.py:728), false for NaN. -/
def nanLt (x : Option K) (tol : K) : Bool :=
  match x with
  | some a => decide (a < tol)
  | none => false

/-- The end of the loop (baseminimizer.py:765-792). -/
def stepResult (niter : ℕ) (converged : Bool) : StepResult := ⟨niter, converged, converged, if converged then 0 else 10⟩

/-- One turn of the loop (baseminimizer.py:720-762): `inl` is the state of the next turn, `inr` the result. -/
def stepTurn (s : Steps K) (niter : ℕ) (changes : List (Option K)) (last : Option K) :
    Except Err ((List (Option K) × Option K) ⊕ StepResult) := do
  let cur ← s.value (niter + 1)
  let changes := changes.tail ++ [change cur last]
  let reached := decide (s.maxiter < niter + 1)
  if (nanLt (nanSum changes) s.tol && (niter + 1) % 3 != 0) || reached then
    let conv ← s.converged (niter + 1)
    if conv || reached then return .inr (stepResult (niter + 1) conv) else return .inl (changes, cur)
  else return .inl (changes, cur)

/-- The loop. `fuel` bounds the number of turns that are looked at; `none` if it is not enough. -/
def stepLoop (s : Steps K) : ℕ → ℕ → List (Option K) → Option K → Option (Except Err StepResult)
  | 0, _, _, _ => none
  | fuel + 1, niter, changes, last =>
    match stepTurn s niter changes last with
    | .error e => some (.error e)
    | .ok (.inr r) => some (.ok r)
    | .ok (.inl (changes, cur)) => stepLoop s fuel (niter + 1) changes cur

/-- `BaseStepMinimizer._minimize` (baseminimizer.py:709-792), looking at `fuel` turns. -/
def stepMinimize (s : Steps K) (fuel : ℕ) : Option (Except Err StepResult) :=
  stepLoop s fuel 0 (List.replicate 5 (some 1)) (some (-10))

/-! ## Tolerances -/

/-- The names of internal tolerances are `gtol`, `xtol` and others (`ftol`, `fatol`, ...). -/
inductive TolName
  | gtol
  | xtol
  | other (n : ℕ)
deriving DecidableEq

/-- `tol_factor` (baseminimizer.py:652). The criterion is a number other than 0 and NaN. -/
noncomputable def tolFactor (tol criterion : ℝ) : ℝ :=
  min (Real.sqrt (min (max (tol / criterion * 0.3) 0.0001) 0.04)) 0.21

/-- `_update_tol_inplace` (baseminimizer.py:651-657). -/
noncomputable def updateTol (tol criterion : ℝ) (internal : List (TolName × ℝ)) : List (TolName × ℝ) :=
  internal.map fun t =>
    match t.1 with
    | .gtol => (t.1, t.2 * Real.sqrt (tolFactor tol criterion))
    | .xtol => (t.1, t.2 * Real.sqrt (tolFactor tol criterion))
    | .other _ => (t.1, t.2 * tolFactor tol criterion)

end Zfit.Min
