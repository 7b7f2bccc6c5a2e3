import Verif.Common.Py
import Mathlib.Algebra.Order.Field.Rat
import Mathlib.Algebra.Order.Group.Unbundled.Abs
import Mathlib.Data.Nat.Notation

/-!
# Model of the registry of analytic integrals

/repo/zfit/core/integration.py: `AnalyticIntegral` (591-748); the comparison of limits: /repo/zfit/core/space.py
`less_equal_limits` (769-799), `equal_space` (2539-2575), `compare_multispace` (2581-2612), `Space.__ge__` (1132: not
implemented, so that Python asks `limits <= integ.limits`), and /repo/zfit/z/unstable.py `allclose_anyaware` (20-50).

Spaces have one piece, rectangular limits and axes (the limits of registered integrals have no observables).  Axes are kept
sorted (integration.py:682), so limits are a list, one pair per axis; `none` is an `ANY` limit.  The two levels of
dictionaries (axes, then limits) are one list of entries: limits of different axes never compare equal or less-or-equal
(space.py:2601), so their order does not matter.
-/

namespace Zfit.Num

open Zfit

/-- Limits: for each axis lower and upper. -/
abbrev Box := List (Option Rat × Option Rat)

/-- An integral as registered: the axes, the limits, the priority, and which function it is. -/
structure Reg where
  axes : List ℕ
  box : Box
  priority : Int
  func : ℕ
  deriving DecidableEq, Repr

/-- `rect_limits_are_any` (space.py:762-766): all limits are `ANY`. -/
def Box.allAny (b : Box) : Bool := b.all fun l => l.1.isNone && l.2.isNone

/-- Some limit is `ANY`. -/
def Box.hasAny (b : Box) : Bool := b.any fun l => l.1.isNone || l.2.isNone

/-- `a <= b` for numbers and `ANY`, which compares true with everything (space.py:100-110). -/
def leAny : Option Rat → Option Rat → Bool
  | some a, some b => decide (a ≤ b)
  | _, _ => true

/-- `less_equal_limits(limit1, limit2)` (space.py:769-799): the lower limits *and* the upper limits are compared with `<=`. -/
def lessEqual (b1 b2 : Box) : Bool :=
  if b1.allAny || b2.allAny then true
  else (List.zipWith (fun l1 l2 => leAny l1.1 l2.1 && leAny l1.2 l2.2) b1 b2).all id

/-- Whether an integral is considered for limits (integration.py:622, with space.py:2593-2612): the axes are the same and
`limits <= integ.limits`. -/
def Reg.matches (r : Reg) (axes : List ℕ) (limits : Box) : Bool := decide (r.axes = axes) && lessEqual limits r.box

/-- Equality of two limits of an axis: with `ANY` always true; else within a tolerance that is relative if `ANY` occurs
somewhere in the limits (unstable.py:20-50), absolute if not (space.py:2571-2578). -/
def closeAny (relative : Bool) : Option Rat → Option Rat → Bool
  | some a, some b =>
    if relative then decide (|a - b| ≤ |b| * (1 / 100000) + 1 / 100000000) else decide (|a - b| < 1 / 100000000)
  | _, _ => true

/-- Equality of limits as keys of the dictionary (space.py:2539-2578).  With `ANY`, converting the limits to numbers fails,
so they are compared one by one ("For ANY objects, this also returns true", space.py:1136). -/
def sameLimits (b1 b2 : Box) : Bool :=
  let rel := b1.hasAny || b2.hasAny
  (List.zipWith (fun l1 l2 => closeAny rel l1.1 l2.1 && closeAny rel l1.2 l2.2) b1 b2).all id

/-- An entry: the key (kept when the value is replaced, as in Python) and the integral. -/
structure Slot where
  key : Box
  reg : Reg
  deriving DecidableEq, Repr

/-- `register` (integration.py:675-683): `self._integrals[axes][limits] = Integral(…)`. -/
def register : List Slot → Reg → List Slot
  | [], r => [⟨r.box, r⟩]
  | s :: rest, r =>
    if s.reg.axes = r.axes ∧ sameLimits s.key r.box = true then ⟨s.key, r⟩ :: rest else s :: register rest r

/-- `max(integrals, key=priority, default=None)`: the first with the highest priority. -/
def best : List Reg → Option Reg
  | [] => none
  | r :: rest =>
    match best rest with
    | none => some r
    | some r' => if r.priority < r'.priority then some r' else some r

/-- `AnalyticIntegral.integrate` (integration.py:712-723) with `get_max_integral` (638-643): which function is called. -/
def choose (slots : List Slot) (axes : List ℕ) (limits : Box) : Except Err ℕ :=
  match best ((slots.map (·.reg)).filter fun r => r.matches axes limits) with
  | none => .error .analyticNotImplemented
  | some r => .ok r.func

/-- The registry after some registrations. -/
def registered (h : List Reg) : List Slot := h.foldl register []

end Zfit.Num
