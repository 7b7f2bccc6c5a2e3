import Verif.Common.Py
import Mathlib.Algebra.Order.Field.Rat
import Mathlib.Algebra.Order.Ring.Abs
import Mathlib.Order.MinMax

/-!
# Model of the values of parameters

/repo/zfit/core/parameter.py (`Parameter`, `set_values`, `assign_values`) and /repo/zfit/util/temporary.py.
Exact rational numbers instead of floats; NaN and infinite *values* are not modelled (infinite limits are: an absent
limit).  Parameters are identified by a number (Python: object identity).
-/

namespace Zfit.Par

open Zfit

/-- A `Parameter` (parameter.py:360-421): limits (absent = infinite) and the value stored in the variable. -/
structure Param where
  lower : Option Rat
  upper : Option Rat
  stored : Rat
  deriving DecidableEq, Repr

/-- `has_limits` (parameter.py:467-471). -/
def Param.hasLimits (p : Param) : Bool := p.lower.isSome || p.upper.isSome

/-- `tol` in `_check_at_limit` (parameter.py:494-501), before the sign: `min(diff * reltol, abstol)`; `diff` is infinite
if a limit is absent. -/
def Param.tol (p : Param) (exact : Bool) : Rat :=
  let reltol : Rat := if exact then 1 / 100000 else 5 / 1000
  let abstol : Rat := if exact then 1 / 10000000 else 1 / 100000
  match p.lower, p.upper with
  | some l, some u => min (|u - l| * reltol) abstol
  | _, _ => abstol

/-- `_check_at_limit` (parameter.py:482-506). -/
def Param.atLimit (p : Param) (v : Rat) (exact : Bool) : Bool :=
  if p.hasLimits then
    let tol := if exact then p.tol exact else -(p.tol exact)
    (match p.lower with | some l => decide (v ≤ l - tol) | none => false) ||
      (match p.upper with | some u => decide (v ≥ u + tol) | none => false)
  else false

/-- `clip_by_value`: the minimum with the upper, then the maximum with the lower limit. -/
def clip (lower upper : Option Rat) (v : Rat) : Rat :=
  let v := match upper with | some u => min v u | none => v
  match lower with | some l => max v l | none => v

/-- `value()` (parameter.py:508-514). -/
def Param.value (p : Param) : Rat := if p.hasLimits then clip p.lower p.upper p.stored else p.stored

/-- `assign` (parameter.py:623-632): no check. -/
def Param.assign (p : Param) (v : Rat) : Param := { p with stored := v }

/-- The setter of `set_value` in eager mode (parameter.py:596-619). -/
def Param.setValue (p : Param) (v : Rat) : Except Err Param :=
  if p.hasLimits && p.atLimit v true then .error .valueError else .ok (p.assign v)

/-- The setter of `set_value` in graph mode (parameter.py:607-619): strict assertions. -/
def Param.setValueGraph (p : Param) (v : Rat) : Except Err Param :=
  if p.hasLimits && ((match p.lower with | some l => decide (¬ v > l) | none => false) ||
      (match p.upper with | some u => decide (¬ v < u) | none => false)) then
    .error .invalidArgument
  else .ok (p.assign v)

/-- `Parameter.__init__` (parameter.py:409-421): the value is stored, the limits set, then `set_value` checks it. -/
def Param.make (value : Rat) (lower upper : Option Rat) : Except Err Param :=
  Param.setValue ⟨lower, upper, value⟩ value

/-! ## Several parameters -/

/-- All parameters that exist, by identity. -/
abbrev Store := Nat → Param

/-- Replaces one parameter. -/
def Store.put (s : Store) (i : Nat) (p : Param) : Store := fun j => if j = i then p else s j

/-- The setter of `set_values` (parameter.py:1543-1545): one after the other; the store as it is when the setter ends,
and whether it raised. -/
def setAll (s : Store) : List (Nat × Rat) → Store × Option Err
  | [] => (s, none)
  | (i, v) :: rest =>
    match (s i).setValue v with
    | .ok p => setAll (s.put i p) rest
    | .error e => (s, some e)

/-- `assign_values` (parameter.py:1476-1480): no checks. -/
def assignAll (s : Store) : List (Nat × Rat) → Store
  | [] => s
  | (i, v) :: rest => assignAll (s.put i ((s i).assign v)) rest

/-! ## Temporary settings -/

/-- A program over the parameters.  `withSet` is `with zfit.param.set_values(params, values): body`
(parameter.py:1512-1550); with one pair it is also `with param.set_value(v): body` (parameter.py:580-621). -/
inductive Prog
  /-- A user exception. -/
  | raise
  /-- `set_values(…)` without a context manager. -/
  | set (block : List (Nat × Rat))
  /-- `assign_values(…)`. -/
  | assign (block : List (Nat × Rat))
  | skip
  | seq (a b : Prog)
  | withSet (block : List (Nat × Rat)) (body : Prog)
  /-- `try: body except: handler`. -/
  | tryExcept (body handler : Prog)

/-- `TemporarilySet.__exit__` after the body ended as `r`: sets the old values (temporary.py:60-61), on exceptions too;
an exception raised here replaces the one of the body. -/
def leave (old : List (Nat × Rat)) (r : Store × Option Err) : Store × Option Err :=
  match setAll r.1 old with
  | (s, some e) => (s, some e)
  | (s, none) => (s, r.2)

/-- A `with` block: `TemporarilySet.__init__` reads the old values, then sets (temporary.py:54-55); if that raises, the
block is not entered and nothing is restored. -/
def withBlock (s : Store) (b : List (Nat × Rat)) (body : Store → Store × Option Err) : Store × Option Err :=
  match setAll s b with
  | (s', some e) => (s', some e)
  | (s', none) => leave (b.map (fun iv => (iv.1, (s iv.1).value))) (body s')

/-- Continues after `r` unless it raised. -/
def andThen (r : Store × Option Err) (k : Store → Store × Option Err) : Store × Option Err :=
  match r with
  | (s, none) => k s
  | (s, some e) => (s, some e)

/-- Handles the exception of `r`. -/
def orElse (r : Store × Option Err) (k : Store → Store × Option Err) : Store × Option Err :=
  match r with
  | (s, none) => (s, none)
  | (s, some _) => k s

/-- Runs a program: the final store, and the exception if one left the program. -/
def run : Prog → Store → Store × Option Err
  | .raise, s => (s, some .userException)
  | .skip, s => (s, none)
  | .set b, s => setAll s b
  | .assign b, s => (assignAll s b, none)
  | .seq a b, s => andThen (run a s) (run b)
  | .withSet b body, s => withBlock s b (run body)
  | .tryExcept body handler, s => orElse (run body s) (run handler)

/-! ## Histories of one parameter -/

/-- What a user can do to one parameter. -/
inductive Op
  | setValue (v : Rat)
  | assign (v : Rat)
  | setLower (l : Option Rat)
  | setUpper (u : Option Rat)
  /-- `randomize` with the value the sampler returned (parameter.py:634-661). -/
  | randomize (v : Rat)
  /-- A temporary setting entered and left, with the operations inside. -/
  | withValue (v : Rat) (body : List Op)

/-- One operation; the second component tells whether it raised. -/
def Op.run : Op → Param → Param × Option Err
  | .setValue v, p => match p.setValue v with | .ok q => (q, none) | .error e => (p, some e)
  | .assign v, p => (p.assign v, none)
  | .setLower l, p => ({ p with lower := l }, none)
  | .setUpper u, p => ({ p with upper := u }, none)
  | .randomize v, p => match p.setValue v with | .ok q => (q, none) | .error e => (p, some e)
  | .withValue v body, p =>
    match p.setValue v with
    | .error e => (p, some e)
    | .ok q =>
      let r := runOps body q
      match r.1.setValue p.value with
      | .ok q' => (q', r.2)
      | .error e => (r.1, some e)
where
  /-- A list of operations, ending at the first exception. -/
  runOps : List Op → Param → Param × Option Err
    | [], p => (p, none)
    | o :: rest, p =>
      match o.run p with
      | (q, none) => runOps rest q
      | (q, some e) => (q, some e)

/-- A history: operations whose exceptions the user catches. -/
def history : List Op → Param → Param
  | [], p => p
  | o :: rest, p => history rest (o.run p).1

end Zfit.Par
