import Verif.Min.LoopModel

/-!
# Model of what a minimiser says about itself

/repo/zfit/minimizers/baseminimizer.py: `minimize_supports` (46-97), `get_maxiter` and `maxiter` (573-589), the strategy in
`create_evaluator` (628-640) and `_call_minimize` (504-522); /repo/zfit/minimizers/strategy.py: `BaseStrategy`, `ToyStrategyFail`,
`DefaultToyStrategy`; /repo/zfit/minimizers/minimizers_scipy.py: `_VALID_SCIPY_GRADIENT` (30-31, 140, 186-205).
-/

namespace Zfit.Sup

open Zfit Zfit.Min

/-! ## `minimize_supports` -/

/-- The argument `init` of `minimize_supports`: `True`, `False` (or another false value), `"same"`, another true value. -/
inductive Flag
  | yes
  | no
  | same
  | other
  deriving DecidableEq, Repr

/-- The method that `minimize_supports` makes of a `_minimize` that takes `init` (baseminimizer.py:66-95). `f` is the undecorated method,
its first argument whether there is a result to start from; `sameType` is whether the minimiser of that result is of exactly the type of
this one. Results to start from that are not a `FitResult` are not modelled. -/
def decorated {K R : Type} (flag : Flag) (sameType : Bool) (f : Bool → Values K → Values K × End R) (hasInit : Bool) (v : Values K) :
    Values K × End R :=
  if flag = .yes then f hasInit v
  else if hasInit then
    if flag = .same then if sameType = false then (v, .initNotImplemented) else f hasInit v
    else if flag = .no then (v, .initNotImplemented)
    else (v, .other .valueError)
  else f hasInit v

/-! ## The number of iterations -/

/-- What is given as `maxiter`: nothing or `"auto"`, a number, a function of the number of parameters. -/
inductive Maxiter
  | auto
  | number (n : ℕ)
  | func (f : ℕ → ℕ)

/-- `get_maxiter` (baseminimizer.py:573-585): `n` is the argument, `running` the number of parameters of the running minimisation if there
is one. -/
def getMaxiter (m : Maxiter) (running n : Option ℕ) : Except Err ℕ :=
  match (match n with
    | some n => Except.ok n
    | none =>
      match running with
      | some k => .ok k
      | none => .error Err.valueError) with
  | .error e => .error e
  | .ok n =>
    match m with
    | .func f => .ok (f n)
    | .auto => .ok (3000 * n)
    | .number k => .ok k

/-- The property `maxiter` (baseminimizer.py:587-589). -/
def maxiterProperty (m : Maxiter) (running : Option ℕ) : Except Err ℕ := getMaxiter m running none

/-! ## Strategies -/

/-- How a minimisation goes that has made its evaluator: it returns a result; NaNs are given up on, where `r` is the result with the
current values that `ToyStrategyFail.minimize_nan` (strategy.py:72-89) would store; a `RuntimeError`; another exception. -/
inductive Went (R : Type)
  | result (r : R)
  | nan (r : R)
  | runtimeError
  | other (e : Err)

/-- The strategy of a minimiser: a class, or (legacy, baseminimizer.py:204-210) an instance; of the kind of `ToyStrategyFail` or not. -/
structure Strategy where
  isClass : Bool
  toy : Bool
  deriving DecidableEq, Repr

/-- `strategy.fit_result` of a new instance (strategy.py:39-41, 55-70): for toys `FitResult(params={}, loss=None, ...)`. -/
def Strategy.new {R : Type} (s : Strategy) (empty : R) : Option R := if s.toy then some empty else none

/-- `create_evaluator` (baseminimizer.py:628-638): the `fit_result` of the strategy that is used; `shared` is that of the instance. Classes
whose constructor raises `TypeError` are not modelled. -/
def Strategy.used {R : Type} (s : Strategy) (empty : R) (shared : Option R) : Option R :=
  if s.isClass then s.new empty else shared

/-- One minimisation: `_call_minimize` (baseminimizer.py:504-522). The state is the `fit_result` of the strategy given as an instance. -/
def minimizeWith {R : Type} (s : Strategy) (empty : R) (shared : Option R) (w : Went R) : Option R × Except Err R :=
  match w with
  | .result r => (shared, .ok r)
  | .other e => (shared, .error e)
  | .nan r =>
    let fit := if s.toy then some r else s.used empty shared
    (if s.isClass then shared else fit, match fit with | some x => .ok x | none => .error .failMinimizeNaN)
  | .runtimeError =>
    (shared, match s.used empty shared with | some x => .ok x | none => .error .runtimeError)

/-- Several minimisations with the same minimiser: their outcomes. -/
def minimizeAll {R : Type} (s : Strategy) (empty : R) : Option R → List (Went R) → List (Except Err R)
  | _, [] => []
  | shared, w :: ws => (minimizeWith s empty shared w).2 :: minimizeAll s empty (minimizeWith s empty shared w).1 ws

/-! ## Derivatives of Scipy minimisers -/

/-- A class: its method resolution order, itself first, and the attribute `_VALID_SCIPY_GRADIENT` in its own dictionary: absent, `None` or
a set (given by its number). `_VALID_SCIPY_HESSIAN` is treated in the same way. -/
structure Cls where
  mro : List ℕ
  own : Option (Option ℕ)
  deriving DecidableEq, Repr

/-- All classes, number 0 is `ScipyBaseMinimizer`, and all sets. -/
structure St where
  classes : List Cls
  sets : List (List String)
  deriving DecidableEq, Repr

/-- minimizers_scipy.py:29-31. -/
def start : St := ⟨[⟨[0], some none⟩], []⟩

/-- `cls._VALID_SCIPY_GRADIENT`. -/
def St.attr (s : St) (c : ℕ) : Option ℕ :=
  (((s.classes[c]?.map (·.mro)).getD []).findSome? fun k => (s.classes[k]?.map (·.own)).getD none).getD none

/-- `__init_subclass__` (minimizers_scipy.py:199-205) for a new class with one base. -/
def St.subclass (s : St) (parent : ℕ) : Except Err St :=
  match s.attr parent with
  | none => .ok ⟨s.classes ++ [⟨s.classes.length :: (s.classes[parent]?.map (·.mro)).getD [], none⟩], s.sets⟩
  | some _ =>
    match s.attr 0 with
    | none => .error .attributeError
    | some r =>
      .ok ⟨s.classes ++ [⟨s.classes.length :: (s.classes[parent]?.map (·.mro)).getD [], some (some s.sets.length)⟩],
        s.sets ++ [(s.sets[r]?).getD []]⟩

/-- `_add_derivative_methods` (minimizers_scipy.py:186-197). -/
def St.add (s : St) (c : ℕ) (methods : List String) : St :=
  match s.attr c with
  | none => ⟨s.classes.modify c fun k => { k with own := some (some s.sets.length) }, s.sets ++ [methods]⟩
  | some r => ⟨s.classes, s.sets.modify r (· ++ methods)⟩

/-- Whether an instance can be made with this gradient (minimizers_scipy.py:140-145). -/
def St.accepts (s : St) (c : ℕ) (g : String) : Bool :=
  match s.attr c with
  | none => true
  | some r => decide (g ∈ (s.sets[r]?).getD [])

/-- What is done with the classes. -/
inductive Op
  | subclass (parent : ℕ)
  | add (c : ℕ) (methods : List String)
  deriving DecidableEq, Repr

/-- A definition that fails leaves no class. -/
def St.step (s : St) : Op → St
  | .subclass p => match s.subclass p with | .ok s' => s' | .error _ => s
  | .add c ms => s.add c ms

def St.run (s : St) (ops : List Op) : St := ops.foldl St.step s

end Zfit.Sup
