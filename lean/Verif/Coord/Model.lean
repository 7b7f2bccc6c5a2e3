import Verif.Common.Py

/-!
# Model of /repo/zfit/core/coordinates.py (and the coordinate part of /repo/zfit/core/space.py)

Observables are strings, axes are integers.  The inputs are assumed to be already converted to tuples by
`convert_to_obs_str` / `convert_to_axes` (coordinates.py:413-455), i.e. inputs that are not strings resp.
integers (a `TypeError`) are not representable.
-/

namespace Zfit.Coord

open Zfit

/-- `Coordinates` (coordinates.py:22-29): the two optional, positionally aligned coordinate tuples. -/
structure Coords where
  obs : Option (List String)
  axes : Option (List Int)
  deriving DecidableEq, Repr

/-- `not t` for an optional tuple: `None` and the empty tuple are falsy. -/
def falsy {α : Type} : Option (List α) → Bool
  | none => true
  | some [] => true
  | some (_ :: _) => false

/-- `Coordinates._check_convert_obs_axes` (coordinates.py:31-63) together with `__init__` (24-28) for tuple
inputs. -/
def Coords.make (obs : Option (List String)) (axes : Option (List Int)) : Except Err Coords :=
  match obs, axes with
  | none, none => .error .coordinatesUnderdefined
  | none, some a =>
    if falsy (some a) then .error .coordinatesUnderdefined else .ok ⟨none, some a⟩
  | some o, none =>
    if falsy (some o) then .error .coordinatesUnderdefined else .ok ⟨some o, none⟩
  | some o, some a =>
    if o.length ≠ a.length then .error .coordinatesIncompatible
    else if falsy (some o) && falsy (some a) then .error .coordinatesUnderdefined
    else .ok ⟨some o, some a⟩

/-- `n_obs` (coordinates.py:49-62, 74-81). -/
def Coords.nObs (c : Coords) : Nat :=
  match c.obs, c.axes with
  | some o, _ => o.length
  | none, some a => a.length
  | none, none => 0

/-- `_reorder_indices(old, new)` (coordinates.py:410-411). -/
def reorderIndices {α : Type} [DecidableEq α] (old new : List α) : Except Err (List Nat) :=
  new.mapM (pyIndex old)

/-- `Coordinates.get_reorder_indices` (coordinates.py:268-297). -/
def Coords.getReorderIndices (c : Coords) (obs : Option (List String)) (axes : Option (List Int)) :
    Except Err (List Nat) :=
  match c.obs, obs with
  | some own, some req => reorderIndices own (req.filter (· ∈ own))
  | _, _ =>
    match c.axes, axes with
    | some own, some req => reorderIndices own (req.filter (· ∈ own))
    | _, _ => .error .coordinatesUnderdefined

/-- `_reorder_obs` / `_reorder_axes` (coordinates.py:256-266). -/
def reorderTuple {α : Type} (l : Option (List α)) (indices : List Nat) : Except Err (Option (List α)) :=
  match l with
  | none => .ok none
  | some l => do
    let r ← indices.mapM (pyGet l)
    return some r

/-- `Coordinates.with_obs` (coordinates.py:125-151). -/
def Coords.withObs (c : Coords) (obs : Option (List String)) (allowSuperset allowSubset : Bool) :
    Except Err Coords :=
  match obs with
  | none =>
    match c.axes with
    | none => .error .axesIncompatible
    | some a => Coords.make none (some a)
  | some req =>
    match c.obs with
    | none => Coords.make (some req) c.axes
    | some own =>
      if ¬ (req.any (· ∈ own)) then .error .obsIncompatible
      else if ¬ allowSuperset ∧ req.any (· ∉ own) then .error .obsIncompatible
      else if ¬ allowSubset ∧ own.any (· ∉ req) then .error .obsIncompatible
      else do
        let idx ← c.getReorderIndices (some req) none
        let newObs ← reorderTuple c.obs idx
        let newAxes ← reorderTuple c.axes idx
        Coords.make newObs newAxes

/-- `Coordinates.with_axes` (coordinates.py:195-222).  `len(self.obs)` with `obs is None` cannot happen on
constructed objects (one of the two is set); it is a `TypeError` in Python. -/
def Coords.withAxes (c : Coords) (axes : Option (List Int)) (allowSuperset allowSubset : Bool) :
    Except Err Coords :=
  match axes with
  | none =>
    match c.obs with
    | none => .error .coordinatesUnderdefined
    | some o => Coords.make (some o) none
  | some req =>
    match c.axes with
    | none =>
      match c.obs with
      | none => .error .typeError
      | some o =>
        if req.length ≠ o.length then .error .axesIncompatible
        else Coords.make (some o) (some req)
    | some own =>
      if ¬ (req.any (· ∈ own)) then .error .axesIncompatible
      else if ¬ allowSuperset ∧ req.any (· ∉ own) then .error .axesIncompatible
      else if ¬ allowSubset ∧ own.any (· ∉ req) then .error .axesIncompatible
      else do
        let idx ← c.getReorderIndices none (some req)
        let newObs ← reorderTuple c.obs idx
        let newAxes ← reorderTuple c.axes idx
        Coords.make newObs newAxes

/-- `range(n)` as axes (coordinates.py:254). -/
def rangeAxes (n : Nat) : List Int := (List.range n).map Int.ofNat

/-- `Coordinates.with_autofill_axes` (coordinates.py:251-254). -/
def Coords.withAutofillAxes (c : Coords) (overwrite : Bool) : Except Err Coords :=
  if ¬ falsy c.axes ∧ ¬ overwrite then .error .axesIncompatible
  else Coords.make c.obs (some (rangeAxes c.nObs))

/-- `Coordinates.__eq__` (coordinates.py:383-393), `frozenset` equality written as mutual inclusion. -/
def Coords.eq (c d : Coords) : Bool :=
  (match c.obs, d.obs with
    | some a, some b => a.all (· ∈ b) && b.all (· ∈ a)
    | _, _ => false) ||
  (match c.axes, d.axes with
    | some a, some b => a.all (· ∈ b) && b.all (· ∈ a)
    | _, _ => false)

/-- `Coordinates.__hash__` (coordinates.py:395-396). -/
def Coords.hash (_ : Coords) : Nat := 42

/-- `gather(x, indices, axis=-1)`: per event (row). -/
def gatherRow {β : Type} (row : List β) (indices : List Nat) : Except Err (List β) :=
  indices.mapM (pyGet row)

/-- `gather(x, indices, axis=-1)` on a two dimensional array given as list of rows. -/
def gather {β : Type} (x : List (List β)) (indices : List Nat) : Except Err (List (List β)) :=
  x.mapM (fun row => gatherRow row indices)

/-- `Coordinates.reorder_x` (coordinates.py:299-381) for a plain array `x` (rows are events).  Here `x` is not a
`ZfitData`, so the consistency check at 367-377 is not reached. -/
def Coords.reorderX {β : Type} (c : Coords) (x : List (List β))
    (xObs : Option (List String)) (xAxes : Option (List Int))
    (funcObs : Option (List String)) (funcAxes : Option (List Int)) : Except Err (List (List β)) :=
  let xReorder := xObs.isSome || xAxes.isSome
  let funcReorder := funcObs.isSome || funcAxes.isSome
  if xReorder == funcReorder then .error .valueError
  else
    let obsDefined := xObs.isSome || funcObs.isSome
    let axesDefined := xAxes.isSome || funcAxes.isSome
    if obsDefined && !falsy c.obs then
      match c.obs, xObs, funcObs with
      | some own, some xo, none => do gather x (← reorderIndices xo own)
      | some own, none, some fo => do gather x (← reorderIndices own fo)
      | _, _, _ => .error .assertionError
    else if axesDefined && !falsy c.axes then
      match c.axes, xAxes, funcAxes with
      | some own, some xa, none => do gather x (← reorderIndices xa own)
      | some own, none, some fa => do gather x (← reorderIndices own fa)
      | _, _, _ => .error .assertionError
    else .error .valueError

/-- A reorder request of a user: `with_obs(l, allow_superset, allow_subset)` or the same for axes. -/
inductive Req
  | obs (l : List String) (allowSuperset allowSubset : Bool)
  | axes (l : List Int) (allowSuperset allowSubset : Bool)
  deriving DecidableEq, Repr

/-- One request. -/
def Coords.apply (c : Coords) : Req → Except Err Coords
  | .obs l sup sub => c.withObs (some l) sup sub
  | .axes l sup sub => c.withAxes (some l) sup sub

/-- A chain of requests, each on the result of the previous one. -/
def Coords.applyAll (c : Coords) : List Req → Except Err Coords
  | [] => .ok c
  | r :: rs => do
    let c' ← c.apply r
    c'.applyAll rs

end Zfit.Coord
