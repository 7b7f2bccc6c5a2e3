import Verif.Common.Py
import Verif.Common.Except
import Mathlib.Analysis.SpecialFunctions.Log.Basic

/-! The way the public methods of a PDF (`pdf`, `log_pdf`, `ext_pdf`, `integrate`, ...) find their value: through the
methods a subclass overrides, the `supports` decorator on these, and the fallbacks (zfit/core/basepdf.py,
zfit/core/basemodel.py, `supports` in zfit/core/space.py).

`X` is the type of events, `P` the type of the single pieces of limits; limits and normalisation ranges are lists of
pieces.  Values are real numbers.  The overridden methods are arbitrary functions that return a value or raise. -/

namespace Zfit.Pdf

open Zfit

variable {X P : Type}

/-- What is passed as `norm` internally: a space with limits, a space whose limits are `False`, or the object `False`. -/
inductive Norm (P : Type)
  | range (pieces : List P)
  | falseSpace
  | pyFalse

/-- A method that has a `norm` argument but no `limits`, overridden in a subclass and decorated with
`supports(norm=...)` (space.py:3357-3400).  `norms` says for which normalisation ranges the decorator lets the call
through: all of them for `norm=True`, none for the default, the one of the PDF for `"space"` and `"norm"`. -/
structure NHook (A P : Type) where
  norms : List P → Bool
  /-- whether it is `norm=True`, in which case the norm is handed on as it is -/
  all : Bool
  impl : A → Norm P → Except Err ℝ

/-- The decorator `check_norm` (space.py:3226-3305). -/
def NHook.call {A : Type} (h : NHook A P) (a : A) (norm : Norm P) : Except Err ℝ :=
  match norm with
  | .range n => if h.all || h.norms n then h.impl a (.range n) else .error .normNotImplemented
  | .falseSpace => if h.all then h.impl a .falseSpace else h.impl a .pyFalse
  | .pyFalse => h.impl a .pyFalse

/-- A method with both `limits` and `norm`; `multi` is `multiple_limits` of `supports`. -/
structure LHook (P : Type) extends NHook (List P) P where
  multi : Bool

/-- The decorators `no_multiple_limits` (space.py:3334-3354), which is outermost, and `check_norm`. -/
def LHook.call (h : LHook P) (limits : List P) (norm : Norm P) : Except Err ℝ :=
  if !h.multi && decide (limits.length > 1) then .error .multipleLimitsNotImplemented
  else h.toNHook.call limits norm

/-- A subclass of `BasePDF`: the overridden methods (`none`: not overridden, the method of the base class raises
`SpecificFunctionNotImplemented`), the registered analytic integral for given limits (none: `AnalyticIntegral.integrate`
raises `AnalyticIntegralNotImplemented`) and the numeric integrator. -/
structure Impl (X P : Type) where
  pdf : Option (NHook X P)
  logPdf : Option (NHook X P)
  extPdf : Option (NHook X P)
  yield : Option ℝ
  unnorm : Option (X → Except Err ℝ)
  normalization : Option (NHook Unit P)
  integrate : Option (LHook P)
  analytic : Option (LHook P)
  registered : List P → Option (LHook P)
  numeric : Option (LHook P)
  numInt : (X → Except Err ℝ) → List P → Except Err ℝ

/-- Calling an overridable method that has no limits. -/
def callN {A : Type} (h : Option (NHook A P)) (a : A) (norm : Norm P) : Except Err ℝ :=
  match h with
  | none => .error .functionNotImplemented
  | some h => h.call a norm

/-- Calling an overridable method that has limits. -/
def callL (h : Option (LHook P)) (limits : List P) (norm : Norm P) : Except Err ℝ :=
  match h with
  | none => .error .functionNotImplemented
  | some h => h.call limits norm

/-- `with suppress(...): return first` followed by the rest of the method. -/
def suppress {α : Type} (catches : Err → Bool) (first rest : Except Err α) : Except Err α :=
  match first with
  | .ok r => .ok r
  | .error e => if catches e then rest else .error e

/-- `FunctionNotImplemented`, including `SpecificFunctionNotImplemented`. -/
def isFNI (e : Err) : Bool := decide (e = .functionNotImplemented)

/-- `AnalyticIntegralNotImplemented`. -/
def isAnalytic (e : Err) : Bool := decide (e = .analyticNotImplemented)

/-- `_call_unnormalized_pdf` (basepdf.py:310-317). -/
def Impl.unnormalized (m : Impl X P) (x : X) : Except Err ℝ :=
  match m.unnorm with
  | none => .error .functionNotImplemented
  | some f => f x

/-- `_fallback_pdf` (basepdf.py:498-502); `norm.has_limits` of the object `False` raises `AttributeError`. -/
noncomputable def Impl.fallbackPdf (m : Impl X P) (normalization : List P → Except Err ℝ) (x : X) (norm : Norm P) :
    Except Err ℝ := do
  let p ← m.unnormalized x
  match norm with
  | .range n => do
    let t ← normalization n
    return p / t
  | .falseSpace => return p
  | .pyFalse => .error .attributeError

/-- The part of `_call_pdf` for an extended PDF (basepdf.py:492-494). -/
noncomputable def Impl.pdfFromExt (m : Impl X P) (x : X) (norm : Norm P) (rest : Except Err ℝ) : Except Err ℝ :=
  match m.yield with
  | none => rest
  | some y => suppress isFNI ((callN m.extPdf x norm).map (· / y)) rest

/-- `_call_pdf` (basepdf.py:487-496), given how a normalisation is obtained. -/
noncomputable def Impl.callPdfWith (m : Impl X P) (normalization : List P → Except Err ℝ) (x : X) (norm : Norm P) :
    Except Err ℝ :=
  suppress isFNI (callN m.pdf x norm) <|
    suppress isFNI ((callN m.logPdf x norm).map Real.exp) <|
      m.pdfFromExt x norm (m.fallbackPdf normalization x norm)

/-- `pdf(x, norm=False)`, the function that is integrated numerically (`_func_to_integrate`, basepdf.py:198-199).  No
normalisation is needed for it.  (`_norm_pdf` would repeat the same call after a `NormNotImplemented`.) -/
noncomputable def Impl.rawPdf (m : Impl X P) (x : X) : Except Err ℝ :=
  m.callPdfWith (fun _ => .error .runtimeError) x .falseSpace

/-- The pattern of `_limits_integrate`, `_limits_analytic_integrate` and `_limits_numeric_integrate`
(basemodel.py:415-423, 579-587, 689-698): integrate each piece if several pieces are not supported. -/
def overPieces (call : List P → Norm P → Except Err ℝ) (limits : List P) (norm : Norm P) : Except Err ℝ :=
  match call limits norm with
  | .error .multipleLimitsNotImplemented => do
    let rs ← limits.mapM (fun p => call [p] norm)
    return rs.sum
  | r => r

/-- `_fallback_analytic_integrate` (basemodel.py:594-605): the registered integral. -/
def Impl.registeredIntegral (m : Impl X P) (limits : List P) (norm : Norm P) : Except Err ℝ :=
  match m.registered limits with
  | none => .error .analyticNotImplemented
  | some h => suppress isFNI (h.call limits norm) (.error .analyticNotImplemented)

/-- `_call_analytic_integrate` (basemodel.py:589-592). -/
def Impl.callAnalytic (m : Impl X P) (limits : List P) (norm : Norm P) : Except Err ℝ :=
  suppress (fun e => isFNI e || isAnalytic e) (callL m.analytic limits norm) (m.registeredIntegral limits norm)

/-- The normalisation inside `_norm_analytic_integrate` (basemodel.py:561-573). -/
def Impl.analyticNormalization (m : Impl X P) (n : List P) : Except Err ℝ :=
  suppress isAnalytic (overPieces m.callAnalytic n .pyFalse) (.error .normNotImplemented)

/-- `_norm_analytic_integrate` (basemodel.py:556-577). -/
noncomputable def Impl.hookAnalytic (m : Impl X P) (limits : List P) (norm : Norm P) : Except Err ℝ :=
  match overPieces m.callAnalytic limits norm with
  | .error .normNotImplemented => do
    let u ← overPieces m.callAnalytic limits .pyFalse
    match norm with
    | .range n => do
      let t ← m.analyticNormalization n
      return u / t
    | _ => .error .attributeError
  | r => r

/-- `_fallback_numeric_integrate` with the `supports(multiple_limits=True)` of `_auto_numeric_integrate`
(basemodel.py:707-708, 1001-1039). -/
noncomputable def Impl.fallbackNumeric (m : Impl X P) (limits : List P) (norm : Norm P) : Except Err ℝ :=
  match norm with
  | .range _ => .error .normNotImplemented
  | _ => m.numInt m.rawPdf limits

/-- `_call_numeric_integrate` (basemodel.py:700-705). -/
noncomputable def Impl.callNumeric (m : Impl X P) (limits : List P) (norm : Norm P) : Except Err ℝ :=
  suppress isFNI (callL m.numeric limits norm) (m.fallbackNumeric limits norm)

/-- `_norm_numeric_integrate` (basemodel.py:679-687). -/
noncomputable def Impl.hookNumeric (m : Impl X P) (limits : List P) (norm : Norm P) : Except Err ℝ :=
  match overPieces m.callNumeric limits norm with
  | .error .normNotImplemented =>
    match norm with
    | .range n => do
      let u ← overPieces m.callNumeric limits .pyFalse
      let t ← overPieces m.callNumeric n .pyFalse
      return u / t
    | _ => .error .assertionError
  | r => r

/-- `_call_integrate` (basemodel.py:425-445).  Simplification: the detour over a partial analytic integral in
`_fallback_integrate` (433-443) is left out; it asks for an analytic integral over all axes, which was tried just
before. -/
noncomputable def Impl.callIntegrate (m : Impl X P) (limits : List P) (norm : Norm P) : Except Err ℝ :=
  suppress isFNI (callL m.integrate limits norm) <|
    suppress isAnalytic (m.hookAnalytic limits norm) <|
      m.hookNumeric limits norm

/-- `_norm_integrate` (basemodel.py:405-413), reached from `integrate` (355-403). -/
noncomputable def Impl.integral (m : Impl X P) (limits : List P) (norm : Norm P) : Except Err ℝ :=
  match overPieces m.callIntegrate limits norm with
  | .error .normNotImplemented => do
    let u ← overPieces m.callIntegrate limits .pyFalse
    match norm with
    | .range n => do
      let t ← overPieces m.callIntegrate n .pyFalse
      return u / t
    | _ => .error .attributeError
  | r => r

/-- `_call_normalization` (basepdf.py:285-292), also behind `normalization`. -/
noncomputable def Impl.normalizationOver (m : Impl X P) (n : List P) : Except Err ℝ :=
  suppress isFNI (callN m.normalization () (.range n)) (m.integral n .pyFalse)

/-- `_call_pdf` (basepdf.py:487-496). -/
noncomputable def Impl.callPdf (m : Impl X P) (x : X) (norm : Norm P) : Except Err ℝ :=
  m.callPdfWith m.normalizationOver x norm

/-- `_norm_pdf` (basepdf.py:479-485), reached from `pdf` (435-474). -/
noncomputable def Impl.evalPdf (m : Impl X P) (x : X) (norm : Norm P) : Except Err ℝ :=
  match m.callPdf x norm with
  | .error .normNotImplemented =>
    match norm with
    | .range n => do
      let u ← m.callPdf x .falseSpace
      let t ← m.normalizationOver n
      return u / t
    | .falseSpace => .error .normNotImplemented
    | .pyFalse => .error .attributeError
  | r => r

/-- `_single_hook_log_normalization` (basepdf.py:599-602), behind `log_normalization`: it returns the normalisation
itself. -/
noncomputable def Impl.logNormalization (m : Impl X P) (n : List P) : Except Err ℝ := m.normalizationOver n

/-- `_call_log_pdf` (basepdf.py:555-563). -/
noncomputable def Impl.callLogPdf (m : Impl X P) (x : X) (norm : Norm P) : Except Err ℝ :=
  suppress isFNI (callN m.logPdf x norm) <|
    suppress isFNI ((callN m.pdf x norm).map Real.log) <|
      (m.evalPdf x norm).map Real.log

/-- `_norm_log_pdf` (basepdf.py:547-553), reached from `log_pdf` (510-545). -/
noncomputable def Impl.evalLogPdf (m : Impl X P) (x : X) (norm : Norm P) : Except Err ℝ :=
  match m.callLogPdf x norm with
  | .error .normNotImplemented => do
    let u ← m.callLogPdf x .pyFalse
    match norm with
    | .range n => do
      let t ← m.logNormalization n
      return u - t
    | _ => .error .attributeError
  | r => r

/-- `_auto_ext_pdf` (basepdf.py:364-371). -/
noncomputable def Impl.autoExtPdf (m : Impl X P) (x : X) (norm : Norm P) : Except Err ℝ :=
  match callN m.extPdf x norm with
  | .error .normNotImplemented =>
    match norm with
    | .range n => do
      let u ← callN m.extPdf x .pyFalse
      let t ← m.normalizationOver n
      return u / t
    | _ => .error .attributeError
  | r => r

/-- `ext_pdf` (basepdf.py:320-362). -/
noncomputable def Impl.evalExtPdf (m : Impl X P) (x : X) (norm : Norm P) : Except Err ℝ :=
  match m.yield with
  | none => .error .notExtended
  | some y => suppress isFNI (m.autoExtPdf x norm) ((m.evalPdf x norm).map (· * y))

/-- `ext_integrate` (basepdf.py:617-654). -/
noncomputable def Impl.extIntegral (m : Impl X P) (limits : List P) (norm : Norm P) : Except Err ℝ :=
  match m.yield with
  | none => .error .notExtended
  | some y => (m.integral limits norm).map (· * y)

end Zfit.Pdf
