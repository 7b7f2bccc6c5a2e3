import Verif.Own.CallModel

/-!
# Model of the call of a registered analytic integral

/repo/zfit/core/integration.py: `AnalyticIntegral.register` (650-691, the wrapping of the function) and `AnalyticIntegral.integrate`
(693-745, from the call of the function on).  Which of the registered functions is taken is in `Verif.Num.AnalyticModel`.

The function is called with keyword arguments only, so that the decorators of `supports` see no object: `self` is `None` there, and what
they would take from the object (the current values of its parameters, its space and its norm) is not used.
-/

namespace Zfit.Own

open Zfit

variable {R : Type}

/-- A registered function: the function as the user writes it, `supports_norm`, `supports_multiple_limits`. -/
structure Registered (R : Type) where
  func : Method R
  norm : Bool
  multiple : Bool

/-- `register` (integration.py:680-683): the function is wrapped by `supports`. -/
def Registered.call (r : Registered R) (c : Call) : Ran R :=
  r.func.supported (if r.norm then .all else .some false false) r.multiple ⟨⟨0, false⟩, ⟨0, false⟩⟩ .none c

/-- Whether an exception is caught by `except TypeError`. -/
def Exn.isTypeError : Exn → Bool
  | .unexpected _ => true
  | .raised .typeError => true
  | .raised _ => false

/-- The four ways in which the function is called (integration.py:717-738). -/
def integralCalls (x limits norm params model : Val) : List Call :=
  [⟨[], [("x", x), ("limits", limits), ("norm", norm), ("params", params), ("model", model)]⟩,
    ⟨[], [("limits", limits), ("norm", norm), ("params", params), ("model", model)]⟩,
    ⟨[], [("x", x), ("limits", limits), ("norm_range", norm), ("params", params), ("model", model)]⟩,
    ⟨[], [("limits", limits), ("norm_range", norm), ("params", params), ("model", model)]⟩]

/-- One after the other until there is no `TypeError`; if all fail, an `AssertionError` (integration.py:717-745). -/
def tryCalls (f : Call → Ran R) : List Call → Ran R
  | [] => ([], .error (.raised .assertionError))
  | c :: cs =>
    match f c with
    | (log, .ok v) => (log, .ok v)
    | (log, .error e) => if e.isTypeError then (log ++ (tryCalls f cs).1, (tryCalls f cs).2) else (log, .error e)

/-- `AnalyticIntegral.integrate` with the chosen function (integration.py:717-745). -/
def Registered.integrate (r : Registered R) (x limits norm params model : Val) : Ran R :=
  tryCalls r.call (integralCalls x limits norm params model)

end Zfit.Own
