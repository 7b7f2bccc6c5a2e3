import Verif.Coord.Model
import Verif.Common.Except
import Mathlib.Algebra.Order.Field.Rat
import Mathlib.Algebra.Order.Ring.Abs

/-!
# Model of /repo/zfit/core/space.py: `Space`

Numbers are exact rationals.  Limits are rectangular, `None` or `False`; functional limits, vectorised limits
(`n_events ≠ 1`), `ANY` limits, tensors, labels, names and (except where stated) binnings are not modelled.  Because
rectangular limits are split into one dimensional pieces by `Limit.get_sublimits` (space.py:405-419), the keys of the
limits dictionaries are single coordinates.
-/

namespace Zfit.Sp

open Zfit Zfit.Coord

/-- One dimensional `Limit` (space.py:285-423): not set (`None`), `False`, or an interval. -/
inductive Lim
  | unset
  | off
  | rect (lo hi : Rat)
  deriving DecidableEq, Repr

/-- `Limit.limits_are_set` / `limits_are_false` / `has_limits` (space.py:620-645), `has_rect_limits` (444-446). -/
def Lim.isSet : Lim → Bool
  | .unset => false
  | _ => true

@[inherit_doc Lim.isSet]
def Lim.isFalse : Lim → Bool
  | .off => true
  | _ => false

@[inherit_doc Lim.isSet]
def Lim.hasRect : Lim → Bool
  | .rect _ _ => true
  | _ => false

/-- `Limit.rect_limits` (space.py:458-481). -/
def Lim.rectLimits : Lim → Except Err (Rat × Rat)
  | .rect lo hi => .ok (lo, hi)
  | _ => .error .limitsNotSpecified

/-- Limits as the user (or another space) gives them to `Space.__init__`: `None`, `False`, the pair
`(lower, upper)`, or the limits dictionary of another space. -/
inductive LimIn
  | none
  | false
  | rect (lower upper : List Rat)
  | dict (obs : Option (List (String × Lim))) (axes : Option (List (Int × Lim)))
  deriving DecidableEq, Repr

/-- `Space` (space.py:1242-2232): coordinates and the two limits dictionaries `_limits_dict["obs"]` and
`_limits_dict["axes"]`, insertion ordered, `none` if the entry is absent. -/
structure Space where
  coords : Coords
  obsLim : Option (List (String × Lim))
  axLim : Option (List (Int × Lim))
  deriving DecidableEq, Repr

/-- `Limit._check_convert_input_limits` (space.py:321-423) followed by `get_sublimits`: the one dimensional pieces. -/
def limitPieces (n : Nat) : LimIn → Except Err (List Lim)
  | .none => .ok (List.replicate n .unset)
  | .false => .ok (List.replicate n .off)
  | .rect lower upper =>
    if lower.length ≠ upper.length then .error .shapeIncompatible
    else if lower.length ≠ n then .error .shapeIncompatible
    else if ¬ (List.zipWith (fun l u => decide (l < u)) lower upper).all id then .error .invalidArgument
    else .ok (List.zipWith .rect lower upper)
  | .dict _ _ => .error .typeError

/-- `d = {}; for k, l in zip(keys, lims): d[k] = l` (space.py:1456-1464). -/
def buildDict {κ : Type} [DecidableEq κ] (keys : List κ) (lims : List Lim) : List (κ × Lim) :=
  (keys.zip lims).foldl (fun d p => dictSet d p.1 p.2) []

/-- `{coord(own[other.index(c)]): lim for c, lim in d.items()}` (space.py:1482-1487 and 1495-1501): the limits keyed by
the other kind of coordinate.  `other is None` would be an `AttributeError`. -/
def deriveDict {κ ι : Type} [DecidableEq κ] [DecidableEq ι] (own : List κ) (other : Option (List ι))
    (d : List (ι × Lim)) : Except Err (List (κ × Lim)) :=
  match other with
  | none => if d.isEmpty then .ok [] else .error .attributeError
  | some other =>
    d.foldlM (fun acc p => do
      let i ← pyIndex other p.1
      let k ← pyGet own i
      return dictSet acc k p.2) []

/-- One kind of coordinate in the second half of `Space._check_convert_input_limits` (space.py:1475-1489 for the
observables, 1490-1502 for the axes): keep the entries that belong to own coordinates, or derive them from the other
kind; without coordinates of this kind there is no entry (1504-1508). -/
def pickOrDerive {κ ι : Type} [DecidableEq κ] [DecidableEq ι] (own : Option (List κ)) (other : Option (List ι))
    (d : Option (List (κ × Lim))) (dOther : Option (List (ι × Lim))) : Except Err (Option (List (κ × Lim))) :=
  match own, d with
  | none, _ => .ok none
  | some o, some d => .ok (some (d.filter (fun p => decide (p.1 ∈ o))))
  | some o, none => do
    let r ← deriveDict o other (dOther.getD [])
    return some r

/-- The second half of `Space._check_convert_input_limits` (space.py:1466-1509). -/
def normaliseDict (obs : Option (List String)) (axes : Option (List Int))
    (dObs : Option (List (String × Lim))) (dAx : Option (List (Int × Lim))) :
    Except Err (Option (List (String × Lim)) × Option (List (Int × Lim))) :=
  if dObs.isNone && dAx.isNone then .error .valueError
  else do
    let newObs ← pickOrDerive obs axes dObs dAx
    let newAx ← pickOrDerive axes obs dAx dObs
    return (newObs, newAx)

/-- `Space.__init__` (space.py:1253-1391) with `_check_convert_input_limits` (1416-1509); no binning, no labels. -/
def Space.make (obs : Option (List String)) (axes : Option (List Int)) (lim : LimIn) : Except Err Space := do
  let c ← Coords.make obs axes
  match lim with
  | .dict dObs dAx => do
    let (o, a) ← normaliseDict c.obs c.axes dObs dAx
    return ⟨c, o, a⟩
  | lim => do
    let pieces ← limitPieces c.nObs lim
    let dObs := c.obs.map (buildDict · pieces)
    let dAx := c.axes.map (buildDict · pieces)
    let (o, a) ← normaliseDict c.obs c.axes dObs dAx
    return ⟨c, o, a⟩

/-- `_limits_dict["obs" if self.obs is not None else "axes"].values()`; the dictionary is a `defaultdict`, an absent
entry counts as empty. -/
def Space.limValues (s : Space) : List Lim :=
  match s.coords.obs with
  | some _ => (s.obsLim.getD []).map (·.2)
  | none => (s.axLim.getD []).map (·.2)

/-- `Space.limits_are_set` (space.py:1727-1733). -/
def Space.limitsAreSet (s : Space) : Bool := s.limValues.all Lim.isSet

/-- `Space.limits_are_false` (space.py:1710-1717). -/
def Space.limitsAreFalse (s : Space) : Bool := s.limValues.all Lim.isFalse

/-- `Space.has_limits` (space.py:1719-1725). -/
def Space.hasLimits (s : Space) : Bool := s.limitsAreSet && !s.limitsAreFalse

/-- `Space.has_rect_limits` (space.py:1700-1708). -/
def Space.hasRectLimits (s : Space) : Bool := s.limValues.all Lim.hasRect && !s.limValues.isEmpty

/-- `Space._rect_limits_z` (space.py:1649-1671). -/
def Space.rectLimitsZ (s : Space) : Except Err (List Rat × List Rat) := do
  match s.coords.obs with
  | some _ =>
    let d := s.obsLim.getD []
    let lims ← d.mapM (fun p => p.2.rectLimits)
    let keys := d.map (·.1)
    let lo ← s.coords.reorderX [lims.map (·.1)] (some keys) none none none
    let hi ← s.coords.reorderX [lims.map (·.2)] (some keys) none none none
    return (lo.flatten, hi.flatten)
  | none =>
    let d := s.axLim.getD []
    let lims ← d.mapM (fun p => p.2.rectLimits)
    let keys := d.map (·.1)
    let lo ← s.coords.reorderX [lims.map (·.1)] none (some keys) none none
    let hi ← s.coords.reorderX [lims.map (·.2)] none (some keys) none none
    return (lo.flatten, hi.flatten)

/-- `Space.v1.limits` (space.py:128-143) through `fail_not_rect` (196-213) and `_depr_rect_limits` (1576-1582). -/
def Space.rectLimits (s : Space) : Except Err (List Rat × List Rat) :=
  if s.hasLimits && !s.hasRectLimits then .error .runtimeError
  else if !s.hasLimits then .error .limitsNotSpecified
  else s.rectLimitsZ

/-- `Space.volume` (space.py:901-903, 2135-2141) with `calculate_rect_area` (216-219). -/
def Space.volume (s : Space) : Except Err Rat := do
  let (lo, hi) ← s.rectLimits
  return (List.zipWith (fun l h => h - l) lo hi).foldl (· * ·) 1

/-! ## Reordering -/

/-- `Space.copy(obs=.., axes=.., limits=self._limits_dict)` (space.py:2148-2173). -/
def Space.copyWith (s : Space) (obs : Option (List String)) (axes : Option (List Int)) : Except Err Space :=
  Space.make obs axes (.dict s.obsLim s.axLim)

/-- `Space.with_obs` (space.py:1880-1938). -/
def Space.withObs (s : Space) (obs : Option (List String)) (sup sub : Bool) : Except Err Space :=
  match obs with
  | none =>
    match s.coords.obs, s.coords.axes with
    | none, _ => .ok s
    | some _, none => .error .axesIncompatible
    | some _, some a => s.copyWith none (some a)
  | some l => do
    let c ← s.coords.withObs (some l) sup sub
    s.copyWith c.obs c.axes

/-- `Space.with_axes` (space.py:1940-2005). -/
def Space.withAxes (s : Space) (axes : Option (List Int)) (sup sub : Bool) : Except Err Space :=
  match axes with
  | none =>
    match s.coords.axes, s.coords.obs with
    | none, _ => .ok s
    | some _, none => .error .obsIncompatible
    | some _, some o => s.copyWith (some o) none
  | some l =>
    match s.coords.axes with
    | none =>
      match s.coords.obs with
      | none => .error .typeError
      | some o => if l.length ≠ o.length then .error .axesIncompatible else s.copyWith (some o) (some l)
    | some _ => do
      let c ← s.coords.withAxes (some l) sup sub
      s.copyWith c.obs c.axes

/-- `Space.with_autofill_axes` (space.py:2067-2096). -/
def Space.withAutofillAxes (s : Space) (overwrite : Bool) : Except Err Space := do
  let c ← s.coords.withAutofillAxes overwrite
  if s.coords.axes.isNone || overwrite then s.copyWith s.coords.obs c.axes else return s

/-- `if new_space.axes is not None: new_space = new_space.with_axes(None)` (inside `Space.with_coords`, space.py:2007-2065). -/
def Space.dropAxes (s : Space) : Except Err Space :=
  if s.coords.axes.isSome then s.withAxes none true true else .ok s

/-- `Space.with_coords` (space.py:2007-2065). -/
def Space.withCoords (s : Space) (c : Coords) (sup sub : Bool) : Except Err Space :=
  match s.coords.obs, c.obs with
  | some _, some co => do
    let s1 ← s.withObs (some co) sup sub
    match c.axes with
    | none => return s1
    | some _ =>
      let s2 ← s1.dropAxes
      let c' ← c.withObs s2.coords.obs sup sub
      s2.withAxes c'.axes true true
  | _, _ =>
    match s.coords.axes, c.axes with
    | some _, some ca => do
      let s1 ← s.withAxes (some ca) sup sub
      match c.obs with
      | none => return s1
      | some _ =>
        let c' ← c.withAxes s1.coords.axes sup sub
        s1.withObs c'.obs true true
    | _, _ => .error .coordinatesUnderdefined

/-- `extract_limits_from_dict` (space.py:2235-2274) for one dimensional keys: the sort by key length is the identity. -/
def extractLimits {κ : Type} [DecidableEq κ] (d : List (κ × Lim)) (coords : List κ) : List (κ × Lim) :=
  d.filter (fun p => decide (p.1 ∈ coords))

/-- `Space.get_subspace(obs=..)` (space.py:2098-2133). -/
def Space.subspaceObs (s : Space) (l : List String) : Except Err Space := do
  let d := extractLimits (s.obsLim.getD []) l
  let c ← s.coords.withObs (some l) true true
  Space.make c.obs c.axes (.dict (some d) none)

/-- `Space.get_subspace(axes=..)` (space.py:2098-2133). -/
def Space.subspaceAxes (s : Space) (l : List Int) : Except Err Space := do
  let d := extractLimits (s.axLim.getD []) l
  let c ← s.coords.withAxes (some l) true true
  Space.make c.obs c.axes (.dict none (some d))

/-- The reordering requests a user can make on a space. -/
inductive SReq
  | withObs (l : Option (List String)) (sup sub : Bool)
  | withAxes (l : Option (List Int)) (sup sub : Bool)
  | withCoords (c : Coords) (sup sub : Bool)
  | autofill (overwrite : Bool)
  | subObs (l : List String)
  | subAxes (l : List Int)
  deriving DecidableEq, Repr

/-- One request. -/
def Space.apply (s : Space) : SReq → Except Err Space
  | .withObs l sup sub => s.withObs l sup sub
  | .withAxes l sup sub => s.withAxes l sup sub
  | .withCoords c sup sub => s.withCoords c sup sub
  | .autofill ow => s.withAutofillAxes ow
  | .subObs l => s.subspaceObs l
  | .subAxes l => s.subspaceAxes l

/-- A chain of requests, each on the result of the previous one. -/
def Space.applyAll (s : Space) : List SReq → Except Err Space
  | [] => .ok s
  | r :: rs => do
    let s' ← s.apply r
    s'.applyAll rs

/-! ## Points inside -/

/-- Input for `inside`/`filter`: a scalar, a one dimensional array, or an array of events. -/
inductive XIn
  | scalar (a : Rat)
  | vec (l : List Rat)
  | mat (rows : List (List Rat))
  deriving DecidableEq, Repr

/-- `_sanitize_x_input` (space.py:252-269); the last dimension of an array is the common length of its rows. -/
def sanitizeX (nObs : Nat) : XIn → Except Err (List (List Rat))
  | .scalar a => if nObs > 1 then .error .valueError else .ok [[a]]
  | .vec l => if nObs > 1 then .error .valueError else .ok (l.map ([·]))
  | .mat rows => if rows.all (fun r => decide (r.length = nObs)) then .ok rows else .error .shapeIncompatible

/-- `Limit._inside` / `inside_rect_limits` (space.py:223-235, 558-563) for one row of a one dimensional limit:
inclusive on both sides, over all columns. -/
def insideRow (lo hi : Rat) (row : List Rat) : Bool :=
  row.all (fun v => decide (v ≤ hi)) && row.all (fun v => decide (lo ≤ v))

/-- `Limit.inside` (space.py:534-556). -/
def Lim.inside (l : Lim) (rows : List (List Rat)) : Except Err (List Bool) :=
  match l with
  | .rect lo hi => .ok (rows.map (insideRow lo hi))
  | _ => .error .limitsNotSpecified

/-- `znp.all(xs_inside, axis=0)` for masks of `n` events. -/
def allMasks (n : Nat) (masks : List (List Bool)) : List Bool :=
  masks.foldl (fun acc m => List.zipWith (· && ·) acc m) (List.replicate n true)

/-- `Space._inside` (space.py:2175-2185). -/
def Space.insideRaw (s : Space) (rows : List (List Rat)) : Except Err (List Bool) := do
  match s.coords.obs with
  | some _ =>
    let masks ← (s.obsLim.getD []).mapM (fun p => do
      let sub ← s.coords.reorderX rows none none (some [p.1]) none
      p.2.inside sub)
    return allMasks rows.length masks
  | none =>
    let masks ← (s.axLim.getD []).mapM (fun p => do
      let sub ← s.coords.reorderX rows none none none (some [p.1])
      p.2.inside sub)
    return allMasks rows.length masks

/-- The mask `inside` returns: one entry per event, or (with `guarantee_limits`) the full shape of `x`. -/
inductive Mask
  | perEvent (m : List Bool)
  | full (m : List (List Bool))
  deriving DecidableEq, Repr

/-- `BaseSpace.inside` (space.py:878-895) for a `Space`. -/
def Space.inside (s : Space) (x : XIn) (guarantee : Bool) : Except Err Mask := do
  let rows ← sanitizeX s.coords.nObs x
  if s.hasRectLimits && guarantee then return .full (rows.map (fun r => r.map (fun _ => true)))
  let m ← s.insideRaw rows
  return .perEvent m

/-- `tf.boolean_mask(x, mask)` for events. -/
def booleanMask {β : Type} : List β → List Bool → List β
  | x :: xs, b :: bs => if b then x :: booleanMask xs bs else booleanMask xs bs
  | _, _ => []

/-- `BaseSpace.filter` (space.py:909-953) for an array of events, `axis=None`. -/
def Space.filter (s : Space) (rows : List (List Rat)) (guarantee : Bool) : Except Err (List (List Rat)) := do
  if s.hasRectLimits && guarantee then return rows
  match ← s.inside (.mat rows) guarantee with
  | .perEvent m => return booleanMask rows m
  | .full _ => throw .valueError

/-- `BaseSpace.filter` for a `DataFrame` (space.py:935-946): `columns` are the column names, the query is the
conjunction of `lower <= ob <= upper` over the observables.  `self.obs` being `None` is a `TypeError`. -/
def Space.filterFrame (s : Space) (columns : List String) (rows : List (List Rat)) (guarantee : Bool) :
    Except Err (List (List Rat)) := do
  if s.hasRectLimits && guarantee then return rows
  match s.coords.obs with
  | none => throw .typeError
  | some obs =>
    if obs.any (fun o => decide (o ∉ columns)) then throw .valueError
    let (lo, hi) ← s.rectLimits
    return rows.filter (fun row =>
      (List.zip obs (List.zip lo hi)).all (fun p =>
        match dictGet (columns.zip row) p.1 with
        | some v => decide (p.2.1 ≤ v) && decide (v ≤ p.2.2)
        | none => false))

end Zfit.Sp
