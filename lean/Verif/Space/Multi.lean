import Verif.Space.Model

/-!
# Model of /repo/zfit/core/space.py: `MultiSpace` and `add_spaces`

Same simplifications as in Model.lean; in addition there is no binning, so that the set of binnings of the leaves
(space.py:2742) has one element unless there are no leaves, and all numbers of events agree.
-/

namespace Zfit.Sp

open Zfit Zfit.Coord

/-- A `ZfitSpace`: a `Space`, or a `MultiSpace` with its leaf spaces and its own coordinates (space.py:2677-2720). -/
inductive ASpace
  | single (s : Space)
  | multi (spaces : List Space) (coords : Coords)
  deriving DecidableEq, Repr

/-- Iterating a space gives itself (space.py:992-993), a `MultiSpace` its spaces (3119-3120). -/
def ASpace.leaves : ASpace → List Space
  | .single s => [s]
  | .multi spaces _ => spaces

/-- `coords` (space.py:868-873). -/
def ASpace.coords : ASpace → Coords
  | .single s => s.coords
  | .multi _ c => c

/-- `flatten_spaces` (space.py:2673-2674). -/
def flattenSpaces (spaces : List ASpace) : List Space := spaces.flatMap ASpace.leaves

/-- Reorder by axes if no leaf has observables (space.py:2761-2762). -/
def alignAxes (leaves : List Space) (axes : Option (List Int)) : Except Err (List Space) :=
  if leaves.all (fun s => s.coords.obs.isNone) then leaves.mapM (fun s => s.withAxes axes false false)
  else .ok leaves

/-- Bring all leaves to one order of coordinates, dropping the coordinates that do not agree
(`MultiSpace._check_convert_input_spaces_obs_axes`, space.py:2738-2768).  `obs`, `axes` are already the chosen ones. -/
def alignLeaves (leaves : List Space) (obs : Option (List String)) (axes : Option (List Int)) :
    Except Err (List Space) :=
  let allObs := leaves.all (fun s => s.coords.obs.isSome)
  let allAxes := leaves.all (fun s => s.coords.axes.isSome)
  if allObs then do
    let ls ← leaves.mapM (fun s => s.withObs obs false false)
    if allAxes && ls.all (fun s => decide (s.coords.axes = axes)) then .ok ls
    else ls.mapM (fun s => s.withAxes none true true)
  else if allAxes then do
    let ls ← alignAxes leaves axes
    ls.mapM (fun s => s.withObs none true true)
  else .error .spaceIncompatible

/-- The limits part of `_check_convert_input_spaces_obs_axes` (space.py:2770-2785). -/
def checkLeafLimits (leaves : List Space) : Except Err (List Space) :=
  if leaves.all Space.hasLimits then .ok leaves
  else if !leaves.any Space.hasLimits then .ok (leaves.take 1)
  else .error .limitsIncompatible

/-- `MultiSpace.__new__` and `__init__` (space.py:2677-2720) with `_check_convert_input_spaces_obs_axes`
(2743-2795). -/
def multiMake (spaces : List ASpace) (obs : Option (List String)) (axes : Option (List Int)) : Except Err ASpace :=
  match flattenSpaces spaces with
  | [] => .error .valueError
  | first :: rest =>
    let leaves := first :: rest
    let allObs := leaves.all (fun s => s.coords.obs.isSome)
    let allAxes := leaves.all (fun s => s.coords.axes.isSome)
    let axes := if allAxes then axes.orElse (fun _ => first.coords.axes) else axes
    let obs := if allObs then obs.orElse (fun _ => first.coords.obs) else obs
    do
      let ls ← alignLeaves leaves obs axes
      let ls ← checkLeafLimits ls
      match ls with
      | [s] => return .single s
      | ls => do
        let c ← Coords.make obs axes
        return .multi ls c

/-- `add_spaces` (space.py:2277-2293), also reached by `space1 + space2`. -/
def addSpaces (spaces : List ASpace) : Except Err ASpace := multiMake spaces none none

/-- `has_rect_limits` (space.py:2848-2850 for several spaces). -/
def ASpace.hasRectLimits : ASpace → Bool
  | .single s => s.hasRectLimits
  | .multi spaces _ => spaces.all Space.hasRectLimits

/-- `has_limits` (space.py:2866-2876 for several spaces). -/
def ASpace.hasLimits : ASpace → Bool
  | .single s => s.hasLimits
  | .multi spaces _ => spaces.all Space.limitsAreSet && !spaces.all Space.limitsAreFalse

/-- `znp.any(inside_limits, axis=0)` for masks of `n` events. -/
def anyMasks (n : Nat) (masks : List (List Bool)) : List Bool :=
  masks.foldl (fun acc m => List.zipWith (· || ·) acc m) (List.replicate n false)

/-- A leaf's mask (`space.inside(x)` without guarantee is one boolean per event). -/
def leafMask (rows : List (List Rat)) (s : Space) : Except Err (List Bool) := do
  match ← s.inside (.mat rows) false with
  | .perEvent m => return m
  | .full _ => .error .valueError

/-- `BaseSpace.inside` (space.py:878-895) with `MultiSpace._inside` (3115-3117), without guarantee. -/
def ASpace.inside (A : ASpace) (rows : List (List Rat)) : Except Err (List Bool) :=
  match A with
  | .single s => leafMask rows s
  | .multi spaces c => do
    let rows ← sanitizeX c.nObs (.mat rows)
    let masks ← spaces.mapM (leafMask rows)
    return anyMasks rows.length masks

/-- `volume` / `area` (space.py:904-906, 2136-2141; for several spaces 2829-2834, 2919-2921).  `fail_not_rect`
(196-213) refuses spaces without rectangular limits. -/
def ASpace.volume : ASpace → Except Err Rat
  | .single s => s.volume
  | .multi spaces c =>
    if (ASpace.multi spaces c).hasLimits && !(ASpace.multi spaces c).hasRectLimits then .error .runtimeError
    else if !(ASpace.multi spaces c).hasLimits then .error .limitsNotSpecified
    else do
      let vs ← spaces.mapM Space.volume
      return vs.foldl (· + ·) 0

/-- `MultiSpace.with_obs` (space.py:2923-2965) and `copy` (3094-3104). -/
def ASpace.withObs (A : ASpace) (obs : Option (List String)) (sup sub : Bool) : Except Err ASpace :=
  match A with
  | .single s => do return .single (← s.withObs obs sup sub)
  | .multi spaces c => do
    let ls ← spaces.mapM (fun s => s.withObs obs sup sub)
    let c' ← c.withObs obs sup sub
    multiMake (ls.map .single) c'.obs c'.axes

end Zfit.Sp
