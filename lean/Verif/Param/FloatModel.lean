import Verif.Param.Rounding
import Verif.Common.Py

/-!
# Parameters in double precision

`set_value` and `value()` of a `Parameter` with NaN, infinite values and rounding; `Verif/Param/Model.lean` has them in exact arithmetic.
Every sum, difference and product is rounded by `rnd`; limits are finite or absent.
-/

namespace Zfit.ParF

open Zfit

/-- A floating point number; both zeros are the same. -/
inductive Fl
  | nan
  | ninf
  | fin (q : ℚ)
  | pinf
  deriving DecidableEq

/-- `a <= b`: false if one of them is NaN. -/
def Fl.le : Fl → Fl → Bool
  | .nan, _ => false
  | _, .nan => false
  | .ninf, _ => true
  | _, .pinf => true
  | .fin a, .fin b => decide (a ≤ b)
  | _, _ => false

/-- `a < b`. -/
def Fl.lt : Fl → Fl → Bool
  | .nan, _ => false
  | _, .nan => false
  | .ninf, .ninf => false
  | .ninf, _ => true
  | .pinf, _ => false
  | .fin _, .pinf => true
  | .fin a, .fin b => decide (a < b)
  | .fin _, .ninf => false

def Fl.neg : Fl → Fl
  | .nan => .nan
  | .ninf => .pinf
  | .fin q => .fin (-q)
  | .pinf => .ninf

/-- `a + b`. -/
def Fl.add (rnd : ℚ → ℚ) : Fl → Fl → Fl
  | .nan, _ => .nan
  | _, .nan => .nan
  | .pinf, .ninf => .nan
  | .ninf, .pinf => .nan
  | .pinf, _ => .pinf
  | _, .pinf => .pinf
  | .ninf, _ => .ninf
  | _, .ninf => .ninf
  | .fin a, .fin b => .fin (rnd (a + b))

/-- `a - b`. -/
def Fl.sub (rnd : ℚ → ℚ) (a b : Fl) : Fl := a.add rnd b.neg

/-- A `Parameter` (parameter.py:360-421). -/
structure FParam where
  lower : Option ℚ
  upper : Option ℚ
  stored : Fl
  deriving DecidableEq

/-- `has_limits` (parameter.py:467-471). -/
def FParam.hasLimits (p : FParam) : Bool := p.lower.isSome || p.upper.isSome

/-- `lower` (parameter.py:430-434). -/
def FParam.lowerF (p : FParam) : Fl := match p.lower with | some l => .fin l | none => .ninf

/-- `upper` (parameter.py:446-450). -/
def FParam.upperF (p : FParam) : Fl := match p.upper with | some u => .fin u | none => .pinf

/-- `tol` for `exact=True` (parameter.py:494-501): `minimum(abs(upper - lower) * 1e-5, 1e-7)`, where the difference is infinite if a limit
is absent. -/
def FParam.tol (rnd : ℚ → ℚ) (p : FParam) : ℚ :=
  match p.lower, p.upper with
  | some l, some u => min (rnd (|rnd (u - l)| * rnd (1 / 100000))) (rnd (1 / 10000000))
  | _, _ => rnd (1 / 10000000)

/-- `_check_at_limit(value, exact=True)` (parameter.py:482-506). -/
def FParam.atLimit (rnd : ℚ → ℚ) (p : FParam) (v : Fl) : Bool :=
  p.hasLimits && (v.le (p.lowerF.sub rnd (.fin (p.tol rnd))) || (p.upperF.add rnd (.fin (p.tol rnd))).le v)

/-- `assign` (parameter.py:623-632): no check. -/
def FParam.assign (p : FParam) (v : Fl) : FParam := { p with stored := v }

/-- `set_value` in eager mode (parameter.py:596-606, 619). -/
def FParam.setEager (rnd : ℚ → ℚ) (p : FParam) (v : Fl) : Except Err FParam :=
  if p.hasLimits && p.atLimit rnd v then .error .valueError else .ok (p.assign v)

/-- `set_value` in graph mode (parameter.py:607-619): `assert_greater` and `assert_less`. -/
def FParam.setGraph (p : FParam) (v : Fl) : Except Err FParam :=
  if p.hasLimits && (!(p.lowerF.lt v) || !(v.lt p.upperF)) then .error .invalidArgument else .ok (p.assign v)

/-- `tf.clip_by_value`: the minimum with the upper, then the maximum with the lower limit. What it gives for NaN plays no role in
`value()`, where NaN is added. -/
def clipF (lower upper v : Fl) : Fl :=
  let w := if upper.lt v then upper else v
  if w.lt lower then lower else w

/-- `value()` (parameter.py:508-514); `tfp.math.clip_by_value_preserve_gradient` is `t + stop_gradient(clip(t) - t)`. -/
def FParam.value (rnd : ℚ → ℚ) (p : FParam) : Fl :=
  if p.hasLimits then p.stored.add rnd ((clipF p.lowerF p.upperF p.stored).sub rnd p.stored) else p.stored

/-- `Parameter.__init__` in eager mode (parameter.py:403-421). -/
def FParam.make (rnd : ℚ → ℚ) (value : Fl) (lower upper : Option ℚ) : Except Err FParam := FParam.setEager rnd ⟨lower, upper, value⟩ value

end Zfit.ParF
