import Verif.Common.Py
import Mathlib.Data.Nat.Notation
import Mathlib.Algebra.Order.Field.Basic

/-!
# Model of the evaluation of a loss by a minimiser

/repo/zfit/minimizers/evaluation.py `LossEval`, /repo/zfit/minimizers/strategy.py `PushbackStrategy`.

The loss is not modelled: every request carries what the loss did when it was evaluated, so that theorems range over all losses. `NaN` is
an outcome of its own, other numbers are exact. The conversion of the answer with `numpy_converter` is left out.
-/

namespace Zfit.Min

open Zfit

/-- What the evaluation of the loss gave: a result, a result with a NaN in it, an `InvalidArgumentError` of the backend (its numeric checks
found a NaN) or another exception (evaluation.py:185-207). -/
inductive Out (α β : Type)
  | ok (a : α)
  | nan (b : β)
  | invalid
  | raises (e : Err)

/-- A request of the backend with the parameter values `x`. The `nan` of `valueGradient` has the value of the loss if only the gradient was
NaN. The two `ignore` requests enter and leave `with evaluator.ignore_maxiter()`, leaving normally or with an exception. -/
inductive Req (K : Type)
  | value (x : List K) (o : Out K Unit)
  | gradient (x : List K) (o : Out (List K) Unit)
  | valueGradient (x : List K) (o : Out (K × List K) (Option K))
  | hessian (x : List K) (o : Out (List (List K)) Unit)
  | ignoreEnter
  | ignoreExit (exc : Bool)

/-- A value of the loss as it is reported: a number, NaN or `None`. -/
inductive Rep (K : Type)
  | num (v : K)
  | nan
  | none
deriving DecidableEq

/-- Answers: a value, a gradient, both, a hessian (`none`: NaN or invalid, handed on as it is). -/
inductive Ans (K : Type)
  | value (v : Rep K)
  | gradient (g : Option (List K))
  | valueGradient (v : Rep K) (g : Option (List K))
  | hessian (h : Option (List (List K)))
  | done
deriving DecidableEq

/-- Arguments of `LossEval` (evaluation.py:47-58) and of the strategy (strategy.py:94-112). -/
structure Cfg (K : Type) where
  maxiter : Option ℕ
  doPrint : Bool
  penalty : K
  tol : ℕ

/-- The state of `LossEval`. `olds` are the values saved by the running `ignore_maxiter` blocks. `params` are the values of the parameters.
`evalF`, `evalG`, `evalH` are ghost variables of the specification: how often the loss, its gradient and its hessian were evaluated
outside of such blocks. -/
structure St (K : Type) where
  nfunc : ℕ
  ngrad : ℕ
  nhess : ℕ
  ignoring : Bool
  olds : List Bool
  nanCount : ℕ
  lastValue : Option K
  lastGrad : Option (List K)
  params : List K
  evalF : ℕ
  evalG : ℕ
  evalH : ℕ

/-- `LossEval.__init__` (evaluation.py:79-112). -/
def start {K : Type} (params : List K) : St K := ⟨0, 0, 0, false, [], 0, none, none, params, 0, 0, 0⟩

/-- `niter` (evaluation.py:115-116). -/
def St.niter {K : Type} (s : St K) : ℕ := max s.nfunc (max s.ngrad s.nhess)

/-- `maxiter_reached` (evaluation.py:118-136). -/
def exceeded {K : Type} (c : Cfg K) (s : St K) : Bool :=
  !s.ignoring && match c.maxiter with
    | none => false
    | some m => decide (m < s.niter)

/-- `self.nfunc_eval += 1` and the other counters (evaluation.py:138-163, 177-179, 240-241, 295-296, 354-355): the counter is set, then the
budget is checked. -/
def tick {K : Type} (c : Cfg K) (inc : St K → St K) (s : St K) : St K × Option Err :=
  if s.ignoring then (s, none)
  else if exceeded c (inc s) then (inc s, some .maximumIterationReached) else (inc s, none)

def incF {K : Type} (s : St K) : St K := { s with nfunc := s.nfunc + 1 }
def incG {K : Type} (s : St K) : St K := { s with ngrad := s.ngrad + 1 }
def incH {K : Type} (s : St K) : St K := { s with nhess := s.nhess + 1 }

/-- The ghost counters. -/
def St.countF {K : Type} (s : St K) : St K := if s.olds = [] then { s with evalF := s.evalF + 1 } else s
def St.countG {K : Type} (s : St K) : St K := if s.olds = [] then { s with evalG := s.evalG + 1 } else s
def St.countH {K : Type} (s : St K) : St K := if s.olds = [] then { s with evalH := s.evalH + 1 } else s

variable {K : Type} [Field K]

/-- What is reported if there is no last loss (strategy.py:124-128): the value given; a string (`none`) is rejected. -/
def firstLoss (given : Option (Rep K)) : Except Err (Rep K) :=
  match given with
  | none => .error .runtimeError
  | some r => .ok r

/-- `PushbackStrategy.minimize_nan` (strategy.py:114-132): `given` is `values["loss"]`, `none` if it is the string. -/
def minimizeNan (c : Cfg K) (s : St K) (given : Option (Rep K)) : Except Err (Rep K × Option (List K)) :=
  if s.nanCount < c.tol then
    match s.lastValue with
    | some v => .ok (.num (v + c.penalty * s.nanCount), s.lastGrad.map (·.map Neg.neg))
    | none => do return (← firstLoss given, s.lastGrad.map (·.map Neg.neg))
  else .error .failMinimizeNaN

/-- `value` (evaluation.py:242-281) after counting. With `do_print` the message that replaced the loss is converted to a float
(evaluation.py:262-264, 407), which raises. -/
def valueBody (c : Cfg K) (s : St K) (x : List K) (o : Out K Unit) : St K × Except Err (Ans K) :=
  let s := { s with params := x }.countF
  match o with
  | .ok v => ({ s with nanCount := 0, lastValue := some v }, .ok (.value (.num v)))
  | .nan _ =>
    let s := { s with nanCount := s.nanCount + 1 }
    (s, (minimizeNan c s (some .nan)).map (fun r => .value r.1))
  | .invalid =>
    if c.doPrint then (s, .error .valueError)
    else
      let s := { s with nanCount := s.nanCount + 1 }
      (s, (minimizeNan c s none).map (fun r => .value r.1))
  | .raises e => (s, .error (if c.doPrint then .valueError else e))

/-- `gradient` (evaluation.py:297-340) after counting. -/
def gradientBody (c : Cfg K) (s : St K) (x : List K) (o : Out (List K) Unit) : St K × Except Err (Ans K) :=
  let s := { s with params := x }.countG
  match o with
  | .ok g => ({ s with nanCount := 0, lastGrad := some g }, .ok (.gradient (some g)))
  | .nan _ | .invalid =>
    let s := { s with nanCount := s.nanCount + 1 }
    (s, (minimizeNan c s (some .none)).map (fun r => .gradient r.2))
  | .raises e => (s, .error e)

/-- The value of the loss that came with a NaN gradient. -/
def repOf (v : Option K) : Rep K :=
  match v with
  | some v => .num v
  | none => .nan

/-- `value_gradient` (evaluation.py:181-226) after counting. -/
def valueGradientBody (c : Cfg K) (s : St K) (x : List K) (o : Out (K × List K) (Option K)) : St K × Except Err (Ans K) :=
  let s := { s with params := x }.countF.countG
  match o with
  | .ok (v, g) => ({ s with nanCount := 0, lastValue := some v, lastGrad := some g }, .ok (.valueGradient (.num v) (some g)))
  | .nan b =>
    let s := { s with nanCount := s.nanCount + 1 }
    (s, (minimizeNan c s (some (repOf b))).map (fun r => .valueGradient r.1 r.2))
  | .invalid =>
    if c.doPrint then (s, .error .valueError)
    else
      let s := { s with nanCount := s.nanCount + 1 }
      (s, (minimizeNan c s none).map (fun r => .valueGradient r.1 r.2))
  | .raises e => (s, .error (if c.doPrint then .valueError else e))

/-- `hessian` (evaluation.py:356-398) after counting: the answer of the strategy is not used. -/
def hessianBody (c : Cfg K) (s : St K) (x : List K) (o : Out (List (List K)) Unit) : St K × Except Err (Ans K) :=
  let s := { s with params := x }.countH
  match o with
  | .ok h => ({ s with nanCount := 0 }, .ok (.hessian (some h)))
  | .nan _ | .invalid =>
    let s := { s with nanCount := s.nanCount + 1 }
    (s, (minimizeNan c s (some .none)).map (fun _ => .hessian none))
  | .raises e => (s, .error e)

/-- The counting at the beginning of each method. -/
def counting (c : Cfg K) (r : Req K) (s : St K) : St K × Option Err :=
  match r with
  | .value _ _ => tick c incF s
  | .gradient _ _ => tick c incG s
  | .valueGradient _ _ =>
    match tick c incF s with
    | (s, some e) => (s, some e)
    | (s, none) => tick c incG s
  | .hessian _ _ => tick c incH s
  | _ => (s, none)

/-- The rest of each method; `ignore_maxiter` (evaluation.py:126-132) has no `try/finally`. -/
def body (c : Cfg K) (r : Req K) (s : St K) : St K × Except Err (Ans K) :=
  match r with
  | .value x o => valueBody c s x o
  | .gradient x o => gradientBody c s x o
  | .valueGradient x o => valueGradientBody c s x o
  | .hessian x o => hessianBody c s x o
  | .ignoreEnter => ({ s with olds := s.ignoring :: s.olds, ignoring := true }, .ok .done)
  | .ignoreExit exc =>
    match s.olds with
    | [] => (s, .ok .done)
    | old :: olds => ({ s with olds := olds, ignoring := if exc then s.ignoring else old }, .ok .done)

/-- One request. -/
def request (c : Cfg K) (s : St K) (r : Req K) : St K × Except Err (Ans K) :=
  match counting c r s with
  | (s, some e) => (s, .error e)
  | (s, none) => body c r s

/-- A sequence of requests with all answers. -/
def serve (c : Cfg K) : St K → List (Req K) → St K × List (Except Err (Ans K))
  | s, [] => (s, [])
  | s, r :: rs => ((serve c (request c s r).1 rs).1, (request c s r).2 :: (serve c (request c s r).1 rs).2)

end Zfit.Min
