import Verif.Common.Py
import Mathlib.Data.Rat.Defs
import Mathlib.Algebra.Order.Ring.Rat
import Mathlib.Algebra.Order.Group.MinMax
import Mathlib.Algebra.Order.Field.Basic

/-!
# Model of a parameter as an object: its attributes, pickling, `randomize` and the automatic conversion to parameters

/repo/zfit/core/parameter.py: `Parameter` (345-741), `convert_to_parameter(s)` (1324-1456).
Numbers are exact.  Area `Param` models the store of values and the limits in more detail; here the attributes matter:
a limit that was never given (`None`) is not the same as an infinite one.
-/

namespace Zfit.Args

open Zfit

/-- A limit as a number: finite, or infinite on its side. -/
inductive Lim
  | inf
  | fin (v : ℚ)
  deriving DecidableEq, Repr

/-- A `Parameter`: the variable and the attributes `_lower`, `_upper`, `_floating`, `_stepsize`, `_label`, `_name`. -/
structure PObj where
  name : String
  stored : ℚ
  lowerAttr : Option Lim
  upperAttr : Option Lim
  floating : Bool
  stepAttr : Option ℚ
  labelAttr : Option String
  deriving DecidableEq, Repr

/-- `lower` (parameter.py:436-441) and `upper` (452-457). -/
def PObj.lower (p : PObj) : Lim := p.lowerAttr.getD .inf
/-- See `PObj.lower`. -/
def PObj.upper (p : PObj) : Lim := p.upperAttr.getD .inf
/-- `has_limits` (parameter.py:469-472). -/
def PObj.hasLimits (p : PObj) : Bool := p.lowerAttr.isSome || p.upperAttr.isSome
/-- `has_stepsize` (parameter.py:538-540). -/
def PObj.hasStepsize (p : PObj) : Bool := p.stepAttr.isSome
/-- `stepsize` (parameter.py:547-562), `DEFAULT_stepsize` (357). -/
def PObj.stepsize (p : PObj) : ℚ := p.stepAttr.getD (1 / 100)
/-- `label` (parameter.py:293-297). -/
def PObj.label (p : PObj) : String := p.labelAttr.getD p.name

/-- The tolerance of `_check_at_limit` (parameter.py:497-504): infinite if a limit is, so the absolute one is left. -/
def tolerance (lower upper : Lim) (exact : Bool) : ℚ :=
  let rel := if exact then (1 : ℚ) / 100000 else 5 / 1000
  let abs := if exact then (1 : ℚ) / 10000000 else 1 / 100000
  let tol := match lower, upper with
    | .fin l, .fin u => min (|u - l| * rel) abs
    | _, _ => abs
  if exact then tol else -tol

/-- `_check_at_limit` (parameter.py:483-509). -/
def PObj.checkAtLimit (p : PObj) (v : ℚ) (exact : Bool) : Bool :=
  if !p.hasLimits then false
  else
    let tol := tolerance p.lower p.upper exact
    (match p.lower with | .inf => false | .fin l => decide (v ≤ l - tol))
      || (match p.upper with | .inf => false | .fin u => decide (u + tol ≤ v))

/-- `max(v, lower)`. -/
def atLeast (l : Lim) (v : ℚ) : ℚ := match l with | .inf => v | .fin l => max v l
/-- `min(v, upper)`. -/
def atMost (u : Lim) (v : ℚ) : ℚ := match u with | .inf => v | .fin u => min v u

/-- `value()` (parameter.py:511-517): clipped to the limits, if there are any. -/
def PObj.value (p : PObj) : ℚ := if p.hasLimits then atLeast p.lower (atMost p.upper p.stored) else p.stored

/-- `at_limit` (parameter.py:474-481). -/
def PObj.atLimit (p : PObj) : Bool := p.checkAtLimit p.value false

/-- `set_value` in eager mode (parameter.py:577-620). -/
def PObj.setValue (p : PObj) (v : ℚ) : Except Err PObj :=
  if p.hasLimits && p.checkAtLimit v true then .error .valueError else .ok { p with stored := v }

/-- `Parameter(name, value, lower, upper, stepsize, floating, label=...)` (parameter.py:359-419). -/
def PObj.make (name : String) (value : ℚ) (lower upper : Option Lim) (stepsize : Option ℚ) (floating : Bool)
    (label : Option String) : Except Err PObj :=
  PObj.setValue ⟨name, value, lower, upper, floating, stepsize, label⟩ value

/-- Pickling and restoring: `__reduce__` (parameter.py:731-741) calls the constructor with the properties. -/
def PObj.restored (p : PObj) : Except Err PObj :=
  PObj.make p.name p.value (some p.lower) (some p.upper) (some p.stepsize) p.floating (some p.label)

/-- The first step that Minuit (minimizer_minuit.py:291-297) and NLopt (minimizer_nlopt.py:255-260) get for a parameter:
none, which means that they choose, if the parameter has no step size. -/
def PObj.firstStep (p : PObj) : Option ℚ := if p.hasStepsize then some p.stepsize else none

/-- `randomize(minval, maxval, sampler)` in eager mode (parameter.py:634-661): the parameter afterwards, and the value or
the error.  The check for missing limits (`is None`) never applies, as `lower` and `upper` are numbers in any case. -/
def PObj.randomize (p : PObj) (minval maxval : Option Lim) (sampler : Lim → Lim → Except Err ℚ) :
    PObj × Except Err ℚ :=
  let low := minval.getD p.lower
  let high := maxval.getD p.upper
  match sampler low high with
  | .error e => (p, .error e)
  | .ok v => match p.setValue v with
    | .error e => (p, .error e)
    | .ok q => (q, .ok v)

/-! ### Automatic conversion -/

/-- What can be given where a parameter is expected.  `param id` is a parameter (any class) with its identity. -/
inductive In
  | param (id : Nat)
  | func
  | variable
  | num (v : ℚ)
  | cplx (re im : ℚ)
  deriving DecidableEq

/-- What `convert_to_parameter` returns. -/
inductive Made
  | same (id : Nat)
  | composed (name : String)
  | const (name : String) (v : ℚ)
  | free (p : PObj)
  | complex (name : String) (re im : Made)
  | tensor (v : In)
  deriving DecidableEq

/-- The name of what was made; parameters keep theirs. -/
def Made.newName : Made → Option String
  | .same _ => none
  | .composed n => some n
  | .const n _ => some n
  | .free p => some p.name
  | .complex n _ _ => some n
  | .tensor _ => none

/-- The optional arguments of `convert_to_parameter`. -/
structure ConvArgs where
  name : Option String := none
  preferConstant : Bool := true
  params : Bool := false
  lower : Option Lim := none
  upper : Option Lim := none
  stepsize : Option ℚ := none
  label : Option String := none

/-- `convert_to_parameter` (parameter.py:1381-1456) with the global counter of automatic names (1324-1336); `auto` is
`run._enable_parameter_autoconversion`.  The classes of numbers are the real and the complex ones. -/
def convertToParameter (auto : Bool) (v : In) (a : ConvArgs) (counter : Nat) : Except Err Made × Nat :=
  match v with
  | .func => if a.params then (.ok (.composed ("Composed_autoparam_" ++ toString counter)), counter + 1)
      else (.error .valueError, counter)
  | .param id => (.ok (.same id), counter)
  | .variable => (.error .typeError, counter)
  | .cplx re im =>
    if !auto then (.ok (.tensor v), counter)
    else
      let name := a.name.getD ("FIXED_complex_autoparam_" ++ toString counter)
      let counter := if a.name.isSome then counter else counter + 1
      if a.preferConstant then
        (.ok (.complex name (.const (name ++ "_REALPART") re) (.const (name ++ "_IMAGPART") im)), counter)
      else
        match PObj.make (name ++ "_REALPART") re none none none true none,
          PObj.make (name ++ "_IMAGPART") im none none none true none with
        | .ok r, .ok i => (.ok (.complex name (.free r) (.free i)), counter)
        | _, _ => (.error .valueError, counter)
  | .num x =>
    if !auto then (.ok (.tensor v), counter)
    else
      let name := a.name.getD ((if a.preferConstant then "FIXED_autoparam_" else "autoparam_") ++ toString counter)
      let counter := if a.name.isSome then counter else counter + 1
      if a.preferConstant then (.ok (.const name x), counter)
      else match PObj.make name x a.lower a.upper a.stepsize true a.label with
        | .ok p => (.ok (.free p), counter)
        | .error e => (.error e, counter)

/-- A sequence of conversions, in one session; what was made, with its errors left out. -/
def convertAll (auto : Bool) : List (In × ConvArgs) → Nat → List Made × Nat
  | [], n => ([], n)
  | (v, a) :: rest, n =>
    let r := convertToParameter auto v a n
    let s := convertAll auto rest r.2
    (match r.1 with | .ok m => m :: s.1 | .error _ => s.1, s.2)

/-- The columns given to `convert_to_parameters`; `none` if an argument is `None`. -/
structure Columns where
  value : List In
  name : Option (List String) := none
  lower : Option (List Lim) := none
  upper : Option (List Lim) := none
  stepsize : Option (List ℚ) := none

/-- `isinstance(val, ZfitParameter)`. -/
def In.isParam : In → Bool
  | .param _ => true
  | _ => false

/-- The lengths of the columns that are given (parameter.py:1368-1371). -/
def Columns.consistent (c : Columns) : Bool :=
  let n := c.value.length
  (match c.name with | none => true | some l => l.length == n)
    && (match c.lower with | none => true | some l => l.length == n)
    && (match c.upper with | none => true | some l => l.length == n)
    && (match c.stepsize with | none => true | some l => l.length == n)

/-- The loop of `convert_to_parameters` (parameter.py:1373-1377) from position `i` on. -/
def convertRows (auto : Bool) (preferConstant : Bool) (c : Columns) : List In → Nat → Nat → Except Err (List Made) × Nat
  | [], _, n => (.ok [], n)
  | v :: rest, i, n =>
    let r := convertToParameter auto v
      { name := c.name.bind (·[i]?), preferConstant := preferConstant, lower := c.lower.bind (·[i]?),
        upper := c.upper.bind (·[i]?), stepsize := c.stepsize.bind (·[i]?) } n
    match r.1 with
    | .error e => (.error e, r.2)
    | .ok m =>
      let s := convertRows auto preferConstant c rest (i + 1) r.2
      (s.1.map (m :: ·), s.2)

/-- `convert_to_parameters` (parameter.py:1339-1377) for columns that are containers already. -/
def convertToParameters (auto : Bool) (c : Columns) (preferConstant : Bool) (n : Nat) : Except Err (List Made) × Nat :=
  if c.value.all In.isParam then
    (.ok (c.value.map (fun v => match v with | .param id => .same id | v => .tensor v)), n)
  else if c.value.any In.isParam then (.error .valueError, n)
  else if !c.consistent then (.error .valueError, n)
  else convertRows auto preferConstant c c.value 0 n

end Zfit.Args
