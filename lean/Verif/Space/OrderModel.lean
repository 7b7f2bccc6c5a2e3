import Verif.Space.MultiEqModel

/-!
# Model of /repo/zfit/core/space.py: `<=` and `>=` of spaces

Same simplifications as in MultiEqModel.lean.
-/

namespace Zfit.Sp

open Zfit

/-- `Limit.less_equal` (space.py:695-715) with `less_equal_limits` (769-799): both the lower and the upper limits are compared with `<=`.
Spaces with some limits missing or `False` and others not are left out. -/
def Lim.lessEqual (a b : Lim) : Bool :=
  match a, b with
  | .rect l u, .rect l' u' => decide (l ≤ l') && decide (u ≤ u')
  | _, _ => false

/-- `A <= B` (`BaseSpace.__le__`, space.py:1182-1194, and `MultiSpace.__le__`, 3145-3151) with `less_equal_space` (2531-2536).  A space does
not compare itself with a union, and `__ge__` (1132-1133) of the union, which Python asks next, is not implemented: `TypeError`. -/
def ASpace.le (A B : ASpace) : Except Err Bool :=
  match A, B with
  | .single _, .multi _ _ => .error .typeError
  | A, B => compareMulti Lim.lessEqual A B

/-- `A >= B`: not implemented (space.py:1132-1133), so that Python asks `B <= A`. -/
def ASpace.ge (A B : ASpace) : Except Err Bool := B.le A

end Zfit.Sp
