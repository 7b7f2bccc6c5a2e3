import Verif.Space.Multi
import Verif.Space.Combine

/-!
# Model of /repo/zfit/core/space.py: equality and hash of unions of spaces

Same simplifications as in Multi.lean (no binning, so that the comparison of binnings is always passed); no limits `ANY`; eager mode.
-/

namespace Zfit.Sp

open Zfit Zfit.Coord

/-- `np.allclose(x, y, rtol=1e-5, atol=1e-8)` of two finite numbers, as `allclose_anyaware` calls it (z/unstable.py:20-52). -/
def allClose (x y : Rat) : Bool := decide (|x - y| ≤ 1 / 100000000 + 1 / 100000 * |y|)

/-- `Limit.equal` (space.py:665-681) with `equal_limits` (802-832).  Without rectangular limits the limit functions (here `None` or `False`) are
compared. -/
def Lim.equal (a b : Lim) : Bool :=
  match a, b with
  | .rect l u, .rect l' u' => allClose l l' && allClose u u'
  | .rect _ _, _ | _, .rect _ _ => false
  | a, b => decide (a = b)

/-- `compare_limits_dict` (space.py:2657-2670); `cmp` is the comparator of single limits.  The matched entry is removed from the copy of the second dictionary; the keys of the first are all
different, so that this changes nothing and is left out. -/
def compareDict {κ : Type} [DecidableEq κ] (cmp : Lim → Lim → Bool) (d1 d2 : List (κ × Lim)) : Bool :=
  d1.all fun p => match dictGet d2 p.1 with
    | none => false
    | some l => cmp p.2 l

/-- `compare_limits_coords_dict(space1.get_limits(), space2.get_limits())` (space.py:2640-2654; `get_limits` 1511-1538). -/
def comparePieces (cmp : Lim → Lim → Bool) (s t : Space) : Bool :=
  (match s.obsLim, t.obsLim with
    | some a, some b => compareDict cmp a b
    | _, _ => true) &&
  match s.axLim, t.axLim with
    | some a, some b => compareDict cmp a b
    | _, _ => true

/-- `limits_are_set` (space.py:2876-2883 for several spaces). -/
def ASpace.limitsAreSet (A : ASpace) : Bool := A.leaves.all Space.limitsAreSet

/-- `limits_are_false` (space.py:2854-2860 for several spaces). -/
def ASpace.limitsAreFalse (A : ASpace) : Bool := A.leaves.all Space.limitsAreFalse

/-- `BaseSpace.__len__` (space.py:1207-1211). -/
def ASpace.len (A : ASpace) : Nat := if A.hasLimits then A.leaves.length else 0

/-- `with_coords` (space.py:2007-2065; for several spaces 3012-3043). -/
def ASpace.withCoords (A : ASpace) (c : Coords) (sup sub : Bool) : Except Err ASpace :=
  match A with
  | .single s => do return .single (← s.withCoords c sup sub)
  | .multi spaces _ => do
    let ls ← spaces.mapM (fun s => s.withCoords c sup sub)
    multiMake (ls.map .single) none none

/-- `compare_limits_multispace` (space.py:2615-2637): the table of comparisons, and both directions read off it. -/
def compareLimitsMulti (cmp : Lim → Lim → Bool) (A B : ASpace) : Except Err Bool :=
  if A.len ≠ B.len then .ok false
  else if !(A.hasLimits && B.hasLimits) then .ok false
  else do
    let B' ← B.withCoords A.coords true true
    let table := A.leaves.map fun s => B'.leaves.map fun t => comparePieces cmp s t
    let first := table.all fun row => row.any id
    let second := (List.range B'.leaves.length).all fun j => table.any fun row => row[j]?.getD false
    return first && second

/-- `compare_multispace` (space.py:2581-2612). -/
def compareMulti (cmp : Lim → Lim → Bool) (A B : ASpace) : Except Err Bool :=
  let sameObs := match A.coords.obs, B.coords.obs with
    | some a, some b => some (a.all (· ∈ b) && b.all (· ∈ a))
    | _, _ => none
  let sameAxes := match A.coords.axes, B.coords.axes with
    | some a, some b => some (a.all (· ∈ b) && b.all (· ∈ a))
    | _, _ => none
  match sameObs.or sameAxes with
  | none => .ok false
  | some false => .ok false
  | some true =>
    if !A.limitsAreSet then .ok (!B.limitsAreSet)
    else if A.limitsAreFalse then .ok B.limitsAreFalse
    else compareLimitsMulti cmp A B

/-- `==` of two spaces (`BaseSpace.__eq__`, space.py:1149-1159, and `MultiSpace.__eq__`, 3137-3143) with `equal_space` (2539-2551). -/
def ASpace.eq (A B : ASpace) : Except Err Bool :=
  match A, B with
  | .single s, .single t => s.eq t
  | A, B => compareMulti Lim.equal A B

/-- What the hash of a space depends on: `MultiSpace.__hash__` (space.py:3153-3154) is the hash of the tuple of its spaces. -/
def ASpace.hashKey : ASpace → List (Option (List String) × Option (List Int))
  | .single s => [s.hashKey]
  | .multi spaces _ => spaces.map Space.hashKey

end Zfit.Sp
