import Verif.Common.Py
import Mathlib.Algebra.Order.Field.Rat
import Mathlib.Algebra.Order.Ring.Abs

/-!
# Model of /repo/zfit/core/dimension.py

Exact rational numbers instead of floats.  A dimensional object is its tuple of observables together with an identity
(its position in the input).
-/

namespace Zfit.Dim

open Zfit

/-- `not set(a).isdisjoint(b)`, `obs.intersection(b)` being non-empty. -/
def meets (a b : List String) : Bool := a.any (· ∈ b)

/-- Equality of the frozensets of two lists. -/
def sameSet (a b : List String) : Bool := a.all (· ∈ b) && b.all (· ∈ a)

/-! ## `obs_subsets` -/

/-- A dimensional object: its position in the input and its observables. -/
structure Dimensional where
  id : Nat
  obs : List String
  deriving DecidableEq, Repr

/-- One entry of the dictionary: the key (a frozenset, listed) and the objects. -/
abbrev Group := List String × List Dimensional

/-- `obs_dims[key] = value`: replaces the value of an equal key in place, else appends. -/
def groupSet (d : List Group) (k : List String) (v : List Dimensional) : List Group :=
  match d with
  | [] => [(k, v)]
  | (k', v') :: d => if sameSet k' k then (k', v) :: d else (k', v') :: groupSet d k v

/-- `obs_dims.pop(obs)` for the key found by the loop: removes the first entry that meets the observables. -/
def popFirst (obs : List String) : List Group → Option (Group × List Group)
  | [] => none
  | g :: d =>
    if meets g.1 obs then some (g, d)
    else (popFirst obs d).map (fun p => (p.1, g :: p.2))

/-- One pass of the loop of `obs_subsets` (dimension.py:165-173). -/
def subsetsStep (d : List Group) (dim : Dimensional) : List Group :=
  match popFirst dim.obs d with
  | some (g, rest) =>
    -- `obs_dims[union] = obs_dims.pop(obs)`, then `obs_dims[union].append(dim)`
    groupSet rest (g.1 ++ dim.obs) (g.2 ++ [dim])
  | none => groupSet d dim.obs [dim]

/-- `obs_subsets` (dimension.py:153-175). -/
def obsSubsets (dims : List Dimensional) : List Group := dims.foldl subsetsStep []

/-! ## `get_same_obs` -/

/-- `deps[i].add(k)`. -/
def addAt (deps : List (List Nat)) (i k : Nat) : List (List Nat) :=
  deps.modify i (fun l => if k ∈ l then l else l ++ [k])

/-- The inner loop of `get_same_obs` (dimension.py:43-47) for fixed `i`; `j` is the absolute position of the other. -/
def sameInner (obs : List (List String)) (i : Nat) (deps : List (List Nat)) (j : Nat) : List (List Nat) :=
  if meets (obs.getD i []) (obs.getD j []) then addAt (addAt (addAt deps i i) i j) j i else deps

/-- `get_same_obs` (dimension.py:40-49); sets as lists without duplicates. -/
def getSameObs (obs : List (List String)) : List (List Nat) :=
  (List.range obs.length).foldl (fun deps i =>
    ((List.range obs.length).filter (fun j => decide (i < j))).foldl (sameInner obs i) deps)
    (List.replicate obs.length [])

/-! ## `limits_overlap` -/

/-- A (possibly multiple) space for `limits_overlap`: its observables and its boxes, one interval per observable. -/
structure LSpace where
  obs : List String
  boxes : List (List (Rat × Rat))
  deriving DecidableEq, Repr

/-- `eps = 1e-8` (dimension.py:70). -/
def eps : Rat := 1 / 100000000

/-- `np.allclose(a, b)` with the default tolerances. -/
def allclose (a b : Rat) : Bool := decide (|a - b| ≤ 1 / 100000000 + 1 / 100000 * |b|)

/-- Two intervals, the earlier one first (dimension.py:86-93). -/
def pairOverlap (exact : Bool) (other new : Rat × Rat) : Bool :=
  if exact && (allclose other.1 new.1 && allclose other.2 new.2) then false
  else (decide (other.1 - eps < new.1) && decide (new.1 < other.2 - eps)) ||
    (decide (other.1 + eps < new.2) && decide (new.2 < other.2 + eps))

/-- The loop over the intervals of one observable: each one is compared with all earlier ones. -/
def overlapLoop (exact : Bool) : List (Rat × Rat) → List (Rat × Rat) → Bool
  | _, [] => false
  | seen, new :: rest => seen.any (fun other => pairOverlap exact other new) || overlapLoop exact (seen ++ [new]) rest

/-- The intervals of the observable `ob` in the spaces, in the order of the loop (dimension.py:76-84); a space without
limits has no boxes. -/
def intervalsOf (spaces : List LSpace) (ob : String) : List (Rat × Rat) :=
  (spaces.filter (fun s => decide (ob ∈ s.obs))).flatMap (fun s => s.boxes.map (fun b => b.getD (s.obs.idxOf ob) (0, 0)))

/-- `common_obs` (dimension.py:99-123). -/
def commonObs (spaces : List LSpace) : List String :=
  spaces.foldl (fun acc s => s.obs.foldl (fun acc ob => if ob ∈ acc then acc else acc ++ [ob]) acc) []

/-- `limits_overlap` (dimension.py:52-96). -/
def limitsOverlap (spaces : List LSpace) (exact : Bool) : Bool :=
  (commonObs spaces).any (fun ob => overlapLoop exact [] (intervalsOf spaces ob))

end Zfit.Dim
