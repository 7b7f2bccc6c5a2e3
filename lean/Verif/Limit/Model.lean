import Verif.Common.Py
import Verif.Common.Except
import Mathlib.Algebra.Order.Field.Rat
import Mathlib.Data.List.Sort

/-!
# Model of /repo/zfit/core/space.py: limits given by a function, binned spaces and the arguments of `Space`

`Verif/Space` models spaces whose limits are rectangular and that have no binning.  Here a limit can also be a function
of several observables (`Space(obs, limits=fn, rect_limits=...)`), a space can have a binning, and the arguments of the
constructor are modelled before they are sorted out.  Numbers are exact rationals; a function given by the user is a
name, its meaning is a parameter `sem` (every theorem holds for all of them).  Not modelled here: axes as coordinates,
labels, vectorised limits, `ANY`, tensors.
-/

namespace Zfit.Lims

open Zfit

/-- One `Limit` (space.py:284-440): not set, `False`, an interval of one observable (rectangular limits of several
observables are split into these, 413-424), or a function with the rectangle around it. -/
inductive Lim
  | unset
  | off
  | rect (lo up : Rat)
  | fn (f : Nat) (lo up : List Rat)
  deriving DecidableEq, Repr

/-- One axis of a binning (`RegularBinning`/`VariableBinning`, _variables/axis.py): its name and its edges. -/
structure Axis where
  name : String
  edges : List Rat
  deriving DecidableEq, Repr

/-- `Space` (space.py:1242-2232): the observables, `_limits_dict["obs"]` in its order (the key of a limit is the tuple
of its observables), and the binning (`binning`, sorted like the observables). -/
structure Space where
  obs : List String
  lims : List (List String × Lim)
  bins : Option (List Axis)
  deriving DecidableEq, Repr

/-! ## The arguments of `Space` -/

/-- A value that can be given for limits, for `lower`/`upper` or for the binning: a Python integer, a float, a number
that is neither (a NumPy integer, a tensor), a list of numbers (all integers or not), a pair of lists, `False`, a
function, a list of axes.  Python's `None` is `Option.none`. -/
inductive Val
  | int (z : Int)
  | flt (q : Rat)
  | npn (q : Rat)
  | vec (l : List Rat) (ints : Bool)
  | pair (lo up : List Rat)
  | off
  | fn (f : Nat)
  | axes (l : List Axis)
  deriving DecidableEq, Repr

/-- `isinstance(lim, (int, float, Any))` (space.py:1227): `False` is an integer; NumPy integers and tensors are not. -/
def Val.isNumber : Val → Bool
  | .int _ | .flt _ | .off => true
  | _ => false

/-- One of `lower`, `upper` as the list of its entries (`_sanitize_rect_limit`, space.py:426-440): a scalar is one entry.
Everything else cannot be converted to numbers. -/
def Val.side : Val → Except Err (List Rat)
  | .int z => .ok [z]
  | .flt q => .ok [q]
  | .npn q => .ok [q]
  | .off => .ok [0]
  | .vec l _ => .ok l
  | _ => .error .typeError

/-- `[lower, upper]` as limits (space.py:1228, 1234). -/
def mkPair (a b : Val) : Except Err Val :=
  match a.side, b.side with
  | .ok lo, .ok up => .ok (.pair lo up)
  | _, _ => .error .typeError

/-- What the user gives to `Space(obs, *args, limits=, binning=, rect_limits=, lower=, upper=)`. -/
structure Args where
  pos : List (Option Val) := []
  limits : Option Val := none
  binning : Option Val := none
  rectLimits : Option Val := none
  lower : Option Val := none
  upper : Option Val := none
  deriving DecidableEq, Repr

/-- `_legacy_get_arguments_space` (space.py:1218-1239): limits and binning out of the arguments. -/
def Args.resolve (a : Args) : Except Err (Option Val × Option Val) :=
  match a.pos with
  | _ :: _ :: _ :: _ => .error .breakingApiChange
  | [some x, some y] =>
    if x.isNumber && y.isNumber then (mkPair x y).map (fun p => (some p, a.binning)) else .ok (some x, some y)
  | [x, y] => .ok (x, y)
  | [x] => .ok (x, a.binning)
  | [] =>
    match a.lower, a.upper with
    | some l, some u => (mkPair l u).map (fun p => (some p, a.binning))
    | _, _ => .ok (a.limits, a.binning)

/-- The checks on a rectangle (space.py:387-402): equal lengths, as many as observables, `lower < upper`. -/
def checkRect (n : Nat) (lo up : List Rat) : Except Err (List Rat × List Rat) :=
  if lo.length ≠ up.length then .error .shapeIncompatible
  else if lo.length ≠ n then .error .shapeIncompatible
  else if ¬ (List.zipWith (fun l u => decide (l < u)) lo up).all id then .error .invalidArgument
  else .ok (lo, up)

/-- `lower, upper = rect_limits` (space.py:365-369): a number cannot be unpacked, a list of other than two entries
neither. -/
def Val.unpack : Val → Except Err (List Rat × List Rat)
  | .pair lo up => .ok (lo, up)
  | .vec [a, b] _ => .ok ([a], [b])
  | .vec _ _ => .error .valueError
  | _ => .error .typeError

/-- One limit per observable. -/
def perObs (obs : List String) (lo up : List Rat) : List (List String × Lim) :=
  List.zipWith (fun o (p : Rat × Rat) => ([o], Lim.rect p.1 p.2)) obs (lo.zip up)

/-- `Limit(limit_fn=limits, rect_limits=rect_limits, n_obs=n)` and its pieces (space.py:284-440) under the observables
they belong to (`Space._check_convert_input_limits`, 1458-1469). -/
def limitsOf (obs : List String) (limits rect : Option Val) : Except Err (List (List String × Lim)) :=
  match limits, rect with
  | none, none => .ok (obs.map (fun o => ([o], .unset)))
  | none, some .off | some .off, none | some .off, some .off => .ok (obs.map (fun o => ([o], .off)))
  | some (.fn _), none | some (.fn _), some .off => .error .valueError
  | some (.fn f), some r => do
    let (lo, up) ← r.unpack
    let (lo, up) ← checkRect obs.length lo up
    return [(obs, .fn f lo up)]
  | some l, _ => do
    let (lo, up) ← l.unpack
    let (lo, up) ← checkRect obs.length lo up
    return perObs obs lo up
  | none, some (.fn _) => .error .valueError
  | none, some r => do
    let (lo, up) ← r.unpack
    let (lo, up) ← checkRect obs.length lo up
    return perObs obs lo up

/-- The entries of a limits dictionary that a space with these observables takes over: those whose *first* observable is
its own (space.py:1476-1487). -/
def keepDict (obs : List String) (d : List (List String × Lim)) : List (List String × Lim) :=
  d.filter (fun p => p.1.head?.any (· ∈ obs))

/-- `limits_are_set`, `limits_are_false`, `has_limits`, `has_rect_limits` (space.py:1700-1733). -/
def Space.limitsAreSet (s : Space) : Bool := s.lims.all (fun p => p.2 != .unset)

@[inherit_doc Space.limitsAreSet]
def Space.limitsAreFalse (s : Space) : Bool := s.lims.all (fun p => p.2 == .off)

@[inherit_doc Space.limitsAreSet]
def Space.hasLimits (s : Space) : Bool := s.limitsAreSet && !s.limitsAreFalse

/-- Whether a limit is an interval. -/
def Lim.isRect : Lim → Bool
  | .rect _ _ => true
  | _ => false

@[inherit_doc Space.limitsAreSet]
def Space.hasRectLimits (s : Space) : Bool := s.lims.all (fun p => p.2.isRect) && !s.lims.isEmpty

/-- The interval of one observable: `self.lower[0][i]`, `self.upper[0][i]` (space.py:1374-1375, properties with
`fail_not_rect`, 197-211): a `RuntimeError` for functions, `LimitsNotSpecifiedError` without limits. -/
def Space.interval (s : Space) (o : String) : Except Err (Rat × Rat) :=
  if s.hasLimits && !s.hasRectLimits then .error .runtimeError
  else match dictGet s.lims [o] with
    | some (.rect lo up) => .ok (lo, up)
    | _ => .error .limitsNotSpecified

/-- The edges of `RegularBinning(bins=n, start=lo, stop=up)` (_variables/axis.py, `hist.axis.Regular`). -/
def regularEdges (n : Nat) (lo up : Rat) : List Rat :=
  (List.range (n + 1)).map (fun (i : Nat) => lo + (up - lo) * ((i : Rat) / (n : Rat)))

/-- One automatic binning (space.py:1369-1376). -/
def autoAxis (s : Space) (p : String × Rat) : Except Err Axis :=
  if p.2 < 1 then .error .valueError
  else do
    let (lo, up) ← s.interval p.1
    return ⟨p.1, regularEdges p.2.num.toNat lo up⟩

/-- Regular binnings from integers (space.py:1358-1378). -/
def autoBins (s : Space) (ns : List Rat) : Except Err (List Axis) :=
  if ns.length ≠ s.obs.length then .error .shapeIncompatible
  else (s.obs.zip ns).mapM (autoAxis s)

/-- The axis of this name (`binning[ob]`): `KeyError` if there is none. -/
def findAxis (l : List Axis) (o : String) : Except Err Axis :=
  match l.find? (fun a => a.name == o) with
  | some a => .ok a
  | none => .error .keyError

/-- The names are checked and the binning is sorted like the observables (space.py:1379-1390). -/
def sortBins (obs : List String) (l : List Axis) : Except Err (List Axis) :=
  if l.any (fun a => decide (a.name ∉ obs)) then .error .obsIncompatible
  else if obs.any (fun o => decide (o ∉ l.map Axis.name)) then .error .obsIncompatible
  else obs.mapM (findAxis l)

/-- First and last edges of the axes, in the order of the axes (space.py:1343-1347). -/
def edgeLimits (l : List Axis) : Val :=
  .pair (l.map (fun a => a.edges.headD 0)) (l.map (fun a => a.edges.getLastD 0))

/-- Limits as they reach the constructor: something the user gave, or the limits of another space. -/
inductive LimIn
  | val (v : Option Val)
  | dict (d : List (List String × Lim))
  deriving DecidableEq, Repr

/-- The limits dictionary of a new space (space.py:1343-1356, 1416-1512).  Without limits the first and last edges of the
axes of a binning are taken, in the order of the axes. -/
def newLims (obs : List String) (limits : LimIn) (rect : Option Val) (bins : Option Val) :
    Except Err (List (List String × Lim)) :=
  match limits with
  | .dict d => .ok (keepDict obs d)
  | .val (some v) => limitsOf obs (some v) rect
  | .val none =>
    match bins, rect with
    | some (.axes l), none => limitsOf obs (some (edgeLimits l)) none
    | some (.vec _ true), none => .error .attributeError
    | _, _ => limitsOf obs none rect

/-- The binning of a new space (space.py:1309-1326, 1358-1391); `s` has the limits already.  An integer or a list of
integers is a number of bins. -/
def newBins (s : Space) (bins : Option Val) : Except Err (Option (List Axis)) :=
  match bins with
  | none | some .off => .ok none
  | some (.int n) => (autoBins s [n]).map some
  | some (.vec ns true) => (autoBins s ns).map some
  | some (.axes l) => (sortBins s.obs l).map some
  | some _ => .error .typeError

/-- The observables: those given, else the names of the axes of the binning (space.py:1325-1326). -/
def newObs (obs : Option (List String)) (bins : Option Val) : Except Err (List String) :=
  match obs, bins with
  | some [], _ => .error .coordinatesUnderdefined
  | some o, _ => .ok o
  | none, some (.axes (a :: l)) => .ok ((a :: l).map Axis.name)
  | none, _ => .error .coordinatesUnderdefined

/-- `Space.__init__` once the arguments are sorted out (space.py:1307-1391). -/
def Space.make (obs : Option (List String)) (limits : LimIn) (rect bins : Option Val) : Except Err Space := do
  let obs ← newObs obs bins
  let lims ← newLims obs limits rect bins
  let b ← newBins ⟨obs, lims, none⟩ bins
  return ⟨obs, lims, b⟩

/-- `Space(obs, *args, ...)` (space.py:1253-1391). -/
def Space.init (obs : Option (List String)) (a : Args) : Except Err Space := do
  let (limits, bins) ← a.resolve
  Space.make obs (.val limits) a.rectLimits bins

/-! ## Spaces from spaces -/

/-- The binning of a space as an argument. -/
def Space.binVal (s : Space) : Option Val := s.bins.map .axes

/-- `coords.with_obs(obs)` (coordinates.py:125-151) with the default flags: own observables in the order asked for;
none of them is an error. -/
def pickObs (own req : List String) : Except Err (List String) :=
  if req.any (· ∈ own) then .ok (req.filter (· ∈ own)) else .error .obsIncompatible

/-- The axes of these observables (space.py:1929-1931). -/
def pickAxes (obs : List String) : Option (List Axis) → Except Err (Option Val)
  | none => .ok none
  | some l => (obs.mapM (findAxis l)).map (fun r => some (Val.axes r))

/-- `Space.with_obs(obs)` (space.py:1879-1937): the limits dictionary goes to the constructor as it is. -/
def Space.withObs (s : Space) (req : List String) : Except Err Space := do
  let obs ← pickObs s.obs req
  let b ← pickAxes obs s.bins
  Space.make (some obs) (.dict s.lims) none b

/-- `Space.with_limits(limits, rect_limits)` (space.py:1823-1843): the binning goes to the constructor as it is. -/
def Space.withLimits (s : Space) (limits rect : Option Val) : Except Err Space :=
  Space.make (some s.obs) (.val limits) rect s.binVal

/-- `Space.with_binning(binning)` (space.py:2143-2144, 2148-2173). -/
def Space.withBinning (s : Space) (b : Option Val) : Except Err Space :=
  Space.make (some s.obs) (.dict s.lims) none b

/-- `extract_limits_from_dict` (space.py:2236-2275): the longest keys first; a limit with only some of its observables
asked for is cut by `ZfitLimit.get_subspace`, which always raises (core/interfaces.py:409-413). -/
def extract (req : List String) : List (List String × Lim) → Except Err (List (List String × Lim))
  | [] => .ok []
  | p :: d =>
    if p.1.all (fun o => decide (o ∉ req)) then extract req d
    else if p.1.all (fun o => decide (o ∈ req)) then (extract req d).map (fun r => p :: r)
    else .error .invalidLimitSubspace

/-- `sorted(items, key=lambda x: len(x[0]), reverse=True)` (space.py:2254): stable, longest first. -/
def longestFirst (d : List (List String × Lim)) : List (List String × Lim) :=
  d.insertionSort (fun p q => q.1.length ≤ p.1.length)

/-- `Space.get_subspace(obs=...)` (space.py:2098-2132): the binning is not given to the new space. -/
def Space.subspace (s : Space) (req : List String) : Except Err Space := do
  let d ← extract req (longestFirst s.lims)
  let obs ← pickObs s.obs req
  Space.make (some obs) (.dict d) none none

/-- `combine_spaces(s, t)` (space.py:2303-2530) for two spaces without binning, both with limits, and without a common
observable: every observable is unique, so each space is reduced to all of its observables and its limits are taken. -/
def Space.product (s t : Space) : Except Err Space := do
  let ls ← extract (s.obs ++ t.obs) (longestFirst s.lims)
  let lt ← extract (s.obs ++ t.obs) (longestFirst t.lims)
  Space.make (some (s.obs ++ t.obs)) (.dict (ls ++ lt)) none none

/-! ## Points inside -/

/-- `Limit.inside` (space.py:535-563) for one event with the columns of this limit: the function alone decides if there
is one, the rectangle around it is not looked at.  Without limits there is an error. -/
def Lim.inside (sem : Nat → List Rat → Bool) (l : Lim) (cols : List Rat) : Except Err Bool :=
  match l with
  | .rect lo up => .ok (cols.all (fun v => decide (lo ≤ v ∧ v ≤ up)))
  | .fn f _ _ => .ok (sem f cols)
  | _ => .error .limitsNotSpecified

/-- The columns of `key` out of an event with the columns `obs` (`reorder_x(x, func_obs=key)`,
coordinates.py:299-381). -/
def columns (obs key : List String) (row : List Rat) : Except Err (List Rat) := do
  let idx ← key.mapM (pyIndex obs)
  idx.mapM (pyGet row)

/-- One limit of a space on one event (space.py:2180-2184). -/
def insideOne (sem : Nat → List Rat → Bool) (obs : List String) (row : List Rat) (p : List String × Lim) :
    Except Err Bool := do
  let cols ← columns obs p.1 row
  p.2.inside sem cols

/-- `Space.inside(x)` (space.py:880-896, 2175-2185) for one event: inside all limits. -/
def Space.inside (sem : Nat → List Rat → Bool) (s : Space) (row : List Rat) : Except Err Bool :=
  if row.length ≠ s.obs.length then .error .shapeIncompatible
  else do
    let l ← s.lims.mapM (insideOne sem s.obs row)
    return l.all id

/-! ## `convert_to_space` -/

/-- What can be given for `obs` or for `limits`. -/
inductive Given
  | obs (l : List String)
  | space (s : Space)
  | limits (v : Val)
  deriving DecidableEq, Repr

/-- New limits for a space (space.py:3196-3207).  `limits.limits` of a space with a function is a `RuntimeError`, of a
space without limits a `LimitsNotSpecifiedError`. -/
def spaceLimits (s : Space) : Except Err Val :=
  if s.limitsAreFalse then .ok .off
  else if s.hasLimits && !s.hasRectLimits then .error .runtimeError
  else do
    let l ← s.obs.mapM s.interval
    return .pair (l.map (·.1)) (l.map (·.2))

/-- `convert_to_space(obs, limits=..., overwrite_limits=ow)` (space.py:3157-3224), without `axes`; `obs` are observables
or a space, `limits` a space or a value. -/
def convertToSpace (obs : Option Given) (limits : Option Given) (ow : Bool) : Except Err (Option Space) :=
  match obs, limits with
  | some (.space s), none => .ok (some s)
  | some (.space s), some (.space t) =>
    if ow || !s.limitsAreSet then
      if t.obs ≠ s.obs then .error .intentionAmbiguous
      else do
        let v ← spaceLimits t
        let r ← s.withLimits (some v) none
        return some r
    else .ok (some s)
  | some (.space s), some (.limits v) =>
    if ow || !s.limitsAreSet then (s.withLimits (some v) none).map some else .ok (some s)
  | _, some (.space t) => .ok (some t)
  | some (.obs o), some (.limits v) => do
    let s ← Space.make (some o) (.val (some v)) none none
    if s.obs.length > 1 && s.hasLimits then throw .limitsUnderdefined
    return some s
  | some (.obs o), _ => (Space.make (some o) (.val none) none none).map some
  | _, _ => .ok none

end Zfit.Lims
