import Verif.Space.Combine
import Verif.Space.Multi

/-!
# Model of the labels of spaces (/repo/zfit/core/space.py)

A space with its labels on top of the model of spaces in Space/Model.lean.  Same simplifications as there (no binning, rectangular limits);
names are left out.
-/

namespace Zfit.Lab

open Zfit Zfit.Coord Zfit.Sp

/-- `Space._labels` (space.py:1326-1341): `None`, a dictionary by observable, or the tuple that was given (if there are no observables). -/
inductive Stored
  | none
  | map (d : List (String × String))
  | raw (t : List String)
  deriving DecidableEq, Repr

/-- A `Space` with its labels. -/
structure LSpace where
  space : Space
  stored : Stored
  deriving DecidableEq, Repr

/-- `dict(pairs)`. -/
def dictOf (ps : List (String × String)) : List (String × String) := dictUpdate [] ps

/-- The labels in `Space.__init__` (space.py:1327-1341). -/
def mkStored (c : Coords) (label : Option (List String)) : Except Err Stored :=
  match label with
  | some l =>
    if l.length ≠ c.nObs then .error .valueError
    else match c.obs with
      | some o => .ok (.map (dictOf (o.zip l)))
      | Option.none => .ok (.raw l)
  | Option.none =>
    match c.obs with
    | some o => .ok (.map (dictOf (o.zip o)))
    | Option.none => .ok .none

/-- `Space(obs, axes=.., limits=.., label=..)` (space.py:1253-1391): coordinates, labels, limits, in this order. -/
def LSpace.make (obs : Option (List String)) (axes : Option (List Int)) (lim : LimIn) (label : Option (List String)) :
    Except Err LSpace := do
  let c ← Coords.make obs axes
  let st ← mkStored c label
  let s ← Space.make obs axes lim
  return ⟨s, st⟩

/-- `self._labels[ob]`: a tuple or `None` cannot be indexed by a string. -/
def Stored.get : Stored → String → Except Err String
  | .map d, ob =>
    match dictGet d ob with
    | some l => .ok l
    | Option.none => .error .keyError
  | _, _ => .error .typeError

/-- `tuple(self._labels[ob] for ob in obs)`. -/
def LSpace.labelsOf (s : LSpace) (obs : List String) : Except Err (List String) := obs.mapM s.stored.get

/-- `Space.labels` (space.py:1393-1397). -/
def LSpace.labels (s : LSpace) : Except Err (Option (List String)) :=
  match s.space.coords.obs with
  | some o => do return some (← s.labelsOf o)
  | Option.none => .ok Option.none

/-- `Space.label` (space.py:1399-1404). -/
def LSpace.label (s : LSpace) : Except Err String :=
  if s.space.coords.nObs > 1 then .error .valueError
  else do
    match ← s.labels with
    | some (l :: _) => return l
    | some [] => .error .indexError
    | Option.none => .error .typeError

/-- `(newlabels := self.labels) is not None and (obs := ..) is not None: newlabels = tuple(self._labels[ob] for ob in obs)`
(space.py:1935-1936, 1987-1988, 1996-1997, 2001-2002, 2131-2132). -/
def LSpace.newLabels (s : LSpace) (obs : Option (List String)) : Except Err (Option (List String)) := do
  match ← s.labels, obs with
  | some _, some o => return some (← s.labelsOf o)
  | r, _ => return r

/-- The limits of a space as they are handed on (`limits=self._limits_dict`). -/
def LSpace.limits (s : LSpace) : LimIn := .dict s.space.obsLim s.space.axLim

/-- `Space.with_obs` (space.py:1880-1938); without observables left (1924-1931) by `copy`, which hands on `self.labels` (2148-2173). -/
def LSpace.withObs (s : LSpace) (obs : Option (List String)) (sup sub : Bool) : Except Err LSpace :=
  match obs with
  | Option.none =>
    match s.space.coords.obs, s.space.coords.axes with
    | Option.none, _ => .ok s
    | some _, Option.none => .error .axesIncompatible
    | some _, some a => do LSpace.make Option.none (some a) s.limits (← s.labels)
  | some l => do
    let c ← s.space.coords.withObs (some l) sup sub
    let n ← s.newLabels c.obs
    LSpace.make c.obs c.axes s.limits n

/-- `Space.with_axes` (space.py:1940-2005). -/
def LSpace.withAxes (s : LSpace) (axes : Option (List Int)) (sup sub : Bool) : Except Err LSpace :=
  match axes with
  | Option.none =>
    match s.space.coords.axes, s.space.coords.obs with
    | Option.none, _ => .ok s
    | some _, Option.none => .error .obsIncompatible
    | some _, some o => do LSpace.make (some o) Option.none s.limits (← s.newLabels (some o))
  | some l =>
    match s.space.coords.axes with
    | Option.none =>
      match s.space.coords.obs with
      | Option.none => .error .typeError
      | some o =>
        if l.length ≠ o.length then .error .axesIncompatible
        else do LSpace.make (some o) (some l) s.limits (← s.newLabels (some o))
    | some _ => do
      let c ← s.space.coords.withAxes (some l) sup sub
      let n ← s.newLabels c.obs
      LSpace.make c.obs c.axes s.limits n

/-- `Space.with_autofill_axes` (space.py:2067-2096), by `copy`. -/
def LSpace.withAutofillAxes (s : LSpace) (overwrite : Bool) : Except Err LSpace := do
  let c ← s.space.coords.withAutofillAxes overwrite
  if s.space.coords.axes.isNone || overwrite then LSpace.make s.space.coords.obs c.axes s.limits (← s.labels) else return s

/-- `if new_space.axes is not None: new_space = new_space.with_axes(None)` (space.py:2043-2044). -/
def LSpace.dropAxes (s : LSpace) : Except Err LSpace :=
  if s.space.coords.axes.isSome then s.withAxes Option.none true true else .ok s

/-- `Space.with_coords` (space.py:2007-2065). -/
def LSpace.withCoords (s : LSpace) (c : Coords) (sup sub : Bool) : Except Err LSpace :=
  match s.space.coords.obs, c.obs with
  | some _, some co => do
    let s1 ← s.withObs (some co) sup sub
    match c.axes with
    | Option.none => return s1
    | some _ =>
      let s2 ← s1.dropAxes
      let c' ← c.withObs s2.space.coords.obs sup sub
      s2.withAxes c'.axes true true
  | _, _ =>
    match s.space.coords.axes, c.axes with
    | some _, some ca => do
      let s1 ← s.withAxes (some ca) sup sub
      match c.obs with
      | Option.none => return s1
      | some _ =>
        let c' ← c.withAxes s1.space.coords.axes sup sub
        s1.withObs c'.obs true true
    | _, _ => .error .coordinatesUnderdefined

/-- `Space.get_subspace(obs=..)` (space.py:2098-2133). -/
def LSpace.subspaceObs (s : LSpace) (l : List String) : Except Err LSpace := do
  let d := extractLimits (s.space.obsLim.getD []) l
  let c ← s.space.coords.withObs (some l) true true
  let n ← s.newLabels c.obs
  LSpace.make c.obs c.axes (.dict (some d) Option.none) n

/-- `Space.get_subspace(axes=..)` (space.py:2098-2133). -/
def LSpace.subspaceAxes (s : LSpace) (l : List Int) : Except Err LSpace := do
  let d := extractLimits (s.space.axLim.getD []) l
  let c ← s.space.coords.withAxes (some l) true true
  let n ← s.newLabels c.obs
  LSpace.make c.obs c.axes (.dict Option.none (some d)) n

/-- `Space.with_limits` (space.py:1823-1841). -/
def LSpace.withLimits (s : LSpace) (lim : LimIn) : Except Err LSpace := do
  LSpace.make s.space.coords.obs s.space.coords.axes lim (← s.labels)

/-- What a user can do with a space: the requests of Space/Model.lean, and other limits. -/
inductive LReq
  | req (r : SReq)
  | limits (l : LimIn)

/-- One request. -/
def LSpace.apply (s : LSpace) : LReq → Except Err LSpace
  | .req (.withObs l sup sub) => s.withObs l sup sub
  | .req (.withAxes l sup sub) => s.withAxes l sup sub
  | .req (.withCoords c sup sub) => s.withCoords c sup sub
  | .req (.autofill ow) => s.withAutofillAxes ow
  | .req (.subObs l) => s.subspaceObs l
  | .req (.subAxes l) => s.subspaceAxes l
  | .limits l => s.withLimits l

/-- A chain of requests, each on the result of the previous one. -/
def LSpace.applyAll (s : LSpace) : List LReq → Except Err LSpace
  | [] => .ok s
  | r :: rs => do
    let s' ← s.apply r
    s'.applyAll rs

/-! ## Products and unions -/

/-- `d.update(t)` for a tuple of strings: every element has to be a pair, and a string of two characters is one. -/
def updateRaw (d : List (String × String)) : List String → Except Err (List (String × String))
  | [] => .ok d
  | t :: ts =>
    match t.toList with
    | [a, b] => updateRaw (dictSet d (String.singleton a) (String.singleton b)) ts
    | _ => .error .valueError

/-- `if (lab := space._labels) is not None: all_labels_map.update(lab)` (space.py:2338-2340). -/
def addStored (d : List (String × String)) (s : LSpace) : Except Err (List (String × String)) :=
  match s.stored with
  | .none => .ok d
  | .map e => .ok (dictUpdate d e)
  | .raw t => updateRaw d t

/-- `combine_spaces` (space.py:2303-2528) for `Space` objects; `byAxes` is what it does with the limits of spaces that do not all have
observables. -/
def combine (byAxes : List Space → Except Err Space) (spaces : List LSpace) : Except Err LSpace := do
  let m ← spaces.foldlM addStored []
  match commonObs (spaces.map (·.space)) with
  | some common => do
    let s ← combineSpaces (spaces.map (·.space))
    let ls ← common.mapM (Stored.map m).get
    let st ← mkStored s.coords (some ls)
    return ⟨s, st⟩
  | Option.none => do
    let s ← byAxes (spaces.map (·.space))
    let st ← mkStored s.coords Option.none
    return ⟨s, st⟩

/-- `MultiSpace.labels` (space.py:2726-2728). -/
def multiLabels (c : Coords) : Option (List String) := c.obs

/-- The labels of `space1 + space2 + ..` (space.py:2277-2293, 2717-2728): if no space has limits the first space is the result, with its
labels by `with_obs` (2769-2770); otherwise those of a `MultiSpace`. -/
def unionLabels (spaces : List LSpace) : Except Err (Option (List String)) := do
  match ← addSpaces (spaces.map (.single ·.space)) with
  | .multi _ c => return multiLabels c
  | .single t =>
    match t.coords.obs, spaces with
    | some o, s :: _ => return some (← s.labelsOf o)
    | _, _ => return Option.none

end Zfit.Lab
