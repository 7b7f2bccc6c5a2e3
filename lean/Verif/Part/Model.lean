import Verif.Pdf.Model
import Verif.Num.McModel

/-!
# Model of partial integration

/repo/zfit/core/basemodel.py: `partial_integrate` (710-816), `partial_analytic_integrate` (818-921),
`partial_numeric_integrate` (923-999), `_convert_sort_x` (220-244); /repo/zfit/core/integration.py: `mc_integrate` for given
`x` (236-269) and with `xfixed` (330-336).

First the search for a method that answers.  `X` are the events in all observables, `Y` the events in the observables that
are not integrated over, `P` the pieces of ranges in all observables, `Q` the pieces of the limits that are integrated over.
One event at a time: the arrays of the code are handled element by element (sums of stacked arrays, division by a scalar).
-/

namespace Zfit.Part

open Zfit Zfit.Pdf

variable {X Y P Q : Type}

/-- A method with `x`, `limits` and `norm`, overridden and decorated with `supports`. -/
structure PHook (Y P Q : Type) extends NHook (Y × List Q) P where
  multi : Bool

/-- The decorators `no_multiple_limits` (space.py:3334-3354) and `check_norm` (3226-3305). -/
def PHook.call (h : PHook Y P Q) (y : Y) (limits : List Q) (norm : Pdf.Norm P) : Except Err ℝ :=
  if !h.multi && decide (limits.length > 1) then .error .multipleLimitsNotImplemented
  else h.toNHook.call (y, limits) norm

/-- Calling an overridable method; not overridden it raises `SpecificFunctionNotImplemented` (basemodel.py:710-712,
818-820). -/
def callP (h : Option (PHook Y P Q)) (y : Y) (limits : List Q) (norm : Pdf.Norm P) : Except Err ℝ :=
  match h with
  | none => .error .functionNotImplemented
  | some h => h.call y limits norm

/-- A subclass: what is overridden besides the methods of `Pdf.Impl`, the registered partial analytic integrals and the
numeric integration of a function over one piece at an event. -/
structure Impl (X Y P Q : Type) where
  base : Pdf.Impl X P
  part : Option (PHook Y P Q)
  analytic : Option (PHook Y P Q)
  registered : List Q → Option (PHook Y P Q)
  numeric : Option (PHook Y P Q)
  numInt : (X → Except Err ℝ) → Y → Q → Except Err ℝ

/-- `_limits_partial_integrate`, `_limits_partial_analytic_integrate`, `_limits_partial_numeric_integrate`
(basemodel.py:778-787, 894-903, 983-991). -/
def overPieces (call : Y → List Q → Pdf.Norm P → Except Err ℝ) (y : Y) (limits : List Q) (norm : Pdf.Norm P) : Except Err ℝ :=
  match call y limits norm with
  | .error .multipleLimitsNotImplemented => do
    let rs ← limits.mapM (fun q => call y [q] norm)
    return rs.sum
  | r => r

/-- `_fallback_partial_analytic_integrate` (basemodel.py:910-921). -/
def Impl.registeredIntegral (m : Impl X Y P Q) (y : Y) (limits : List Q) (norm : Pdf.Norm P) : Except Err ℝ :=
  match m.registered limits with
  | none => .error .analyticNotImplemented
  | some h => suppress isFNI (h.call y limits norm) (.error .analyticNotImplemented)

/-- `_call_partial_analytic_integrate` (basemodel.py:905-908). -/
def Impl.callAnalytic (m : Impl X Y P Q) (y : Y) (limits : List Q) (norm : Pdf.Norm P) : Except Err ℝ :=
  suppress (fun e => isFNI e || isAnalytic e) (callP m.analytic y limits norm) (m.registeredIntegral y limits norm)

/-- `_norm_partial_analytic_integrate` (basemodel.py:874-892), also behind `partial_analytic_integrate`. -/
noncomputable def Impl.partialAnalytic (m : Impl X Y P Q) (y : Y) (limits : List Q) (norm : Pdf.Norm P) : Except Err ℝ :=
  match overPieces m.callAnalytic y limits norm with
  | .error .normNotImplemented =>
    match norm with
    | .range n => do
      let u ← overPieces m.callAnalytic y limits .pyFalse
      let t ← m.base.analyticNormalization n
      return u / t
    | .falseSpace => .error .assertionError
    | .pyFalse => .error .attributeError
  | r => r

/-- `_auto_numeric_integrate` with `x` (basemodel.py:1001-1041): the decorator refuses a normalisation; `mc_integrate` refuses
several pieces (integration.py:236-239). -/
def Impl.autoNumeric (m : Impl X Y P Q) (func : X → Except Err ℝ) (y : Y) (limits : List Q) (norm : Pdf.Norm P) :
    Except Err ℝ :=
  match norm with
  | .range _ => .error .normNotImplemented
  | _ =>
    match limits with
    | [q] => m.numInt func y q
    | _ => .error .valueError

/-- `_fallback_partial_integrate` (basemodel.py:799-816).  `get_max_axes` finds registered integrals only over all axes of
the limits, since limits over different axes do not compare (see `Num.Reg.matches`).  If there is one (it was tried before,
and has raised), no axes are left: the code ends in the assertion (or in an exception before it). -/
noncomputable def Impl.fallback (m : Impl X Y P Q) (y : Y) (limits : List Q) (norm : Pdf.Norm P) : Except Err ℝ :=
  match m.registered limits with
  | some _ => .error .assertionError
  | none => m.autoNumeric m.base.rawPdf y limits norm

/-- `_call_partial_integrate` (basemodel.py:789-797). -/
noncomputable def Impl.callPartial (m : Impl X Y P Q) (y : Y) (limits : List Q) (norm : Pdf.Norm P) : Except Err ℝ :=
  suppress isFNI (callP m.part y limits norm) <|
    suppress isAnalytic (m.partialAnalytic y limits norm) <|
      suppress isFNI (m.fallback y limits norm) (.error .analyticNotImplemented)

/-- `_norm_partial_integrate` (basemodel.py:768-776), reached from `partial_integrate` (714-766). -/
noncomputable def Impl.partialIntegrate (m : Impl X Y P Q) (y : Y) (limits : List Q) (norm : Pdf.Norm P) : Except Err ℝ :=
  match overPieces m.callPartial y limits norm with
  | .error .normNotImplemented =>
    match norm with
    | .range n => do
      let u ← overPieces m.callPartial y limits .pyFalse
      let t ← m.base.integral n .pyFalse
      return u / t
    | .falseSpace => .error .assertionError
    | .pyFalse => .error .attributeError
  | r => r

/-- `_call_partial_numeric_integrate` (basemodel.py:993-999).  The method of the base class (923-926) has a required argument
`norm_range` that is not given (and `deprecated_norm_range`, deprecation.py:11-25, does not add it): `TypeError`. -/
noncomputable def Impl.callNumeric (m : Impl X Y P Q) (y : Y) (limits : List Q) (norm : Pdf.Norm P) : Except Err ℝ :=
  match m.numeric with
  | none => .error .typeError
  | some h => suppress isFNI (h.call y limits norm) (m.autoNumeric m.base.rawPdf y limits norm)

/-- `_norm_partial_numeric_integrate` (basemodel.py:974-981), reached from `partial_numeric_integrate` (928-972).  The
integral over `norm` is asked for without the required argument `options`: `TypeError`. -/
noncomputable def Impl.partialNumeric (m : Impl X Y P Q) (y : Y) (limits : List Q) (norm : Pdf.Norm P) : Except Err ℝ :=
  match overPieces m.callNumeric y limits norm with
  | .error .normNotImplemented =>
    match norm with
    | .range _ => do
      let _ ← overPieces m.callNumeric y limits .pyFalse
      .error .typeError
    | .falseSpace => .error .assertionError
    | .pyFalse => .error .attributeError
  | r => r

/-! ## The numeric integration over one piece, by the names of the observables -/

/-- A function of all observables of the model, in this order. -/
structure Fn where
  obs : List String
  f : List ℝ → ℝ

/-- `{**a, **b}`. -/
def merge (a b : List (String × ℝ)) : List (String × ℝ) := b.foldl (fun d kv => dictSet d kv.1 kv.2) a

/-- Columns (or limits) with names, ordered as in the model, others dropped: `Data.with_obs(self.obs)` in `_convert_sort_x`
(basemodel.py:236) and `Space.with_coords(self.space)` in `_convert_sort_space` (345). -/
def sorted {α : Type} (obs : List String) (cols : List (String × α)) : List (String × α) :=
  obs.filterMap fun o => (dictGet cols o).map fun v => (o, v)

/-- The function at an event given by names (`Data.from_tensor(tensor=samplestot, obs=obstot)`, integration.py:336, sorted as
above in `pdf`).  Simplification: for an observable that is missing the code raises; here it is 0 (the theorems assume that
none is missing). -/
def Fn.eval (F : Fn) (point : List (String × ℝ)) : ℝ := F.f (F.obs.map fun o => (dictGet point o).getD 0)

/-- How points are drawn and when the loop ends; `halton j` is the `j`-th point in the unit cube.  In a partial integral the
defaults of `mc_integrate` are used (integration.py:185-187): the options of the model are not handed on. -/
structure Drawing where
  halton : ℕ → List ℝ
  spread : (ℕ → ℝ) → ℕ → ℕ → ℝ
  estimate : ℝ → ℕ → ℝ
  tol : ℝ
  maxDraws : ℕ
  drawsPerDim : ℕ

/-- `samples_normed * (upper - lower) + lower` with names (integration.py:328, 333). -/
def stretch (limits : List (String × ℝ × ℝ)) (u : List ℝ) : List (String × ℝ) :=
  List.zipWith (fun l s => (l.1, s * (l.2.2 - l.2.1) + l.2.1)) limits u

/-- The point at which the function is evaluated (integration.py:330-336): `{**samples_named, **xfixed_shaped}`. -/
def point (limits : List (String × ℝ × ℝ)) (x : List (String × ℝ)) (u : List ℝ) : List (String × ℝ) :=
  merge (stretch limits u) x

/-- The volume of the piece (`space.area()`, integration.py:396). -/
def area (limits : List (String × ℝ × ℝ)) : ℝ := (limits.map fun l => l.2.2 - l.2.1).prod

/-- The integration at one event, with limits and event sorted (integration.py:254-264, 271-399). -/
noncomputable def Fn.mc (F : Fn) (d : Drawing) (limits : List (String × ℝ × ℝ)) (x : List (String × ℝ)) : Num.Mc where
  y := fun j => F.eval (point limits x (d.halton j))
  spread := d.spread fun j => F.eval (point limits x (d.halton j))
  estimate := d.estimate
  tol := d.tol
  maxDraws := d.maxDraws
  nSamples := d.drawsPerDim * limits.length

/-- The partial integral at one event as given by the user: `vectorize` is graph mode (integration.py:248, 263); `fuel` is
for the loop. -/
noncomputable def Fn.partialMc (F : Fn) (d : Drawing) (vectorize : Bool) (fuel : ℕ) (limits : List (String × ℝ × ℝ))
    (x : List (String × ℝ)) : Option ℝ :=
  ((F.mc d (sorted F.obs limits) (sorted F.obs x)).average vectorize fuel).map (· * area (sorted F.obs limits))

end Zfit.Part
