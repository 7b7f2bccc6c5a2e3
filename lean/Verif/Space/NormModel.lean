import Verif.Space.Model

/-!
# Model of how a PDF takes its normalisation range

`BasePDF._check_init_norm` and `BasePDF.norm` (core/basepdf.py), `BasePDF._check_input_norm`, `BaseModel._check_input_norm`,
`BaseModel._check_input_limits` and `BaseModel._convert_sort_space` (core/basemodel.py), with the part of `convert_to_space` (core/space.py)
they use.  Not modelled: unions of spaces, binned spaces and functional limits.
-/

namespace Zfit.Sp

open Zfit Zfit.Coord

/-- What a user can give as `norm` (or `limits`): `None`, `False`, `(lower, upper)` or a space. -/
inductive NormIn
  | none
  | false
  | rect (lower upper : List Rat)
  | space (s : Space)
  deriving DecidableEq, Repr

/-- `BaseModel._check_set_space` (basemodel.py:214-218): the space of the PDF. -/
def ownSpace (obs : Space) : Except Err Space := obs.withAutofillAxes true

/-- `set(a) != set(b)` of two tuples of observables. -/
def otherSet (a b : List String) : Bool := !(a.all (· ∈ b) && b.all (· ∈ a))

/-- `BasePDF._check_init_norm` (basepdf.py:179-188), with `Space.with_limits` (space.py:1823-1843); `set(None)` is a `TypeError`. -/
def initNorm (own : Space) : NormIn → Except Err Space
  | .none => .ok own
  | .false => Space.make own.coords.obs own.coords.axes .false
  | .rect lo up => Space.make own.coords.obs own.coords.axes (.rect lo up)
  | .space s =>
    match s.coords.obs, own.coords.obs with
    | some a, some b => if otherSet a b then .error .valueError else s.withCoords own.coords true true
    | _, _ => .error .typeError

/-- `convert_to_space(obs=self.obs, limits=limits)` (space.py:3157-3224) where the observables are names. -/
def fromLimits (obs : Option (List String)) : NormIn → Except Err Space
  | .space s => .ok s
  | .none => Space.make obs none .none
  | .false => Space.make obs none .false
  | .rect lo up => do
    let s ← Space.make obs none (.rect lo up)
    if 1 < s.coords.nObs && s.hasLimits then throw .limitsUnderdefined
    return s

/-- `BaseModel._convert_sort_space` (basemodel.py:320-345) called with limits only. -/
def convertSort (own : Space) (n : NormIn) : Except Err Space := do
  let s ← fromLimits own.coords.obs n
  s.withCoords own.coords true true

/-- `BaseModel._check_input_norm` (basemodel.py:292-311). -/
def baseInputNorm (own : Space) (n : NormIn) (noneIsError : Bool) : Except Err Space :=
  match n with
  | .none => if noneIsError then .error .valueError else convertSort own .none
  | .space s => if !s.limitsAreSet && noneIsError then .error .valueError else convertSort own (.space s)
  | n => convertSort own n

/-- `BasePDF._check_input_norm` (basepdf.py:190-193); `norm` is the PDF's `norm` (218-228). -/
def inputNorm (own norm : Space) (n : NormIn) (noneIsError : Bool) : Except Err Space :=
  match n with
  | .none => baseInputNorm own (.space norm) noneIsError
  | n => baseInputNorm own n noneIsError

/-- `BaseModel._check_input_limits` (basemodel.py:313-318): the limits of `integrate` and `sample`. -/
def inputLimits (own : Space) (n : NormIn) (noneIsError : Bool) : Except Err Space :=
  match n with
  | .none => if noneIsError then .error .valueError else convertSort own .none
  | .space s => if !s.hasLimits && noneIsError then .error .valueError else convertSort own (.space s)
  | n => convertSort own n

/-- The range a call of a PDF normalises over: the PDF is made on the space `obs` with `norm=atInit`, and the method called with `norm=atCall`. -/
def rangeOfCall (obs : Space) (atInit atCall : NormIn) (noneIsError : Bool) : Except Err Space := do
  let own ← ownSpace obs
  let norm ← initNorm own atInit
  inputNorm own norm atCall noneIsError

end Zfit.Sp
