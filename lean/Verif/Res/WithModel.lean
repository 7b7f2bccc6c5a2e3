import Verif.Param.Model
import Mathlib.Data.Nat.Notation

/-!
# Model of `with result:`

/repo/zfit/minimizers/fitresult.py: `__enter__`, `__exit__`, `update_params` (1574-1596); `set_values`
(/repo/zfit/core/parameter.py:1512-1550) is `Zfit.Par.setAll`.
-/

namespace Zfit.Res

open Zfit Zfit.Par

/-- All results: the parameters of each with the fitted values. -/
abbrev Results := ℕ → List (ℕ × Rat)

/-- The parameters, and of each result the stack `_tmp_old_param_values` (fitresult.py:452). -/
structure World where
  store : Store
  stackOf : ℕ → List (List Rat)

/-- Replaces the stack of one result. -/
def World.putStack (w : World) (r : ℕ) (st : List (List Rat)) : World :=
  { w with stackOf := fun i => if i = r then st else w.stackOf i }

/-- The values the parameters of a result have now (`znp.asarray(tuple(self.params.keys()))`, fitresult.py:1575). -/
def currentValues (s : Store) (params : List (ℕ × Rat)) : List Rat := params.map fun iv => (s iv.1).value

/-- `__enter__` (fitresult.py:1574-1577): the old values are pushed first, then `set_values(self)`. -/
def enterResult (res : Results) (r : ℕ) (w : World) : World × Option Err :=
  let w := w.putStack r (currentValues w.store (res r) :: w.stackOf r)
  let x := setAll w.store (res r)
  ({ w with store := x.1 }, x.2)

/-- `__exit__` (fitresult.py:1579-1581): `pop` of an empty list is an `IndexError`.  `zip` cannot cut: the lengths agree. -/
def exitResult (res : Results) (r : ℕ) (w : World) : World × Option Err :=
  match w.stackOf r with
  | [] => (w, some .indexError)
  | old :: rest =>
    let w := w.putStack r rest
    let x := setAll w.store (((res r).map (·.1)).zip old)
    ({ w with store := x.1 }, x.2)

/-- Programs using fit results as context managers. -/
inductive RProg
  | raise
  | skip
  /-- `set_values` without a context manager. -/
  | set (block : List (ℕ × Rat))
  /-- `result.update_params()`. -/
  | update (r : ℕ)
  | seq (a b : RProg)
  /-- `with result: body`. -/
  | withResult (r : ℕ) (body : RProg)
  | tryExcept (body handler : RProg)

/-- Continues after `x` unless it raised. -/
def thenDo (x : World × Option Err) (k : World → World × Option Err) : World × Option Err :=
  match x with
  | (w, none) => k w
  | (w, some e) => (w, some e)

/-- Leaves a block whose body ended as `x`: an exception of `__exit__` replaces the one of the body. -/
def leaveResult (res : Results) (r : ℕ) (x : World × Option Err) : World × Option Err :=
  match exitResult res r x.1 with
  | (w, some e) => (w, some e)
  | (w, none) => (w, x.2)

/-- Handles an exception. -/
def handle (x : World × Option Err) (k : World → World × Option Err) : World × Option Err :=
  match x with
  | (w, none) => (w, none)
  | (w, some _) => k w

/-- Runs a program.  If `__enter__` raises, the block is not entered and `__exit__` is not called. -/
def exec (res : Results) : RProg → World → World × Option Err
  | .raise, w => (w, some .userException)
  | .skip, w => (w, none)
  | .set b, w => let x := setAll w.store b; ({ w with store := x.1 }, x.2)
  | .update r, w => let x := setAll w.store (res r); ({ w with store := x.1 }, x.2)
  | .seq a b, w => thenDo (exec res a w) (exec res b)
  | .withResult r body, w => thenDo (enterResult res r w) fun w => leaveResult res r (exec res body w)
  | .tryExcept a b, w => handle (exec res a w) (exec res b)

end Zfit.Res
