import Verif.Space.Model

/-!
# Model of /repo/zfit/core/space.py: equality, hash and `combine_spaces`

Only spaces without binning; `combine_spaces` for `Space` objects (no `MultiSpace`) that all have observables.
-/

namespace Zfit.Sp

open Zfit Zfit.Coord

/-- The exceptions `except CoordinatesIncompatibleError` catches (util/exception.py): the class and its subclasses. -/
def isCoordinatesIncompatible : Err → Bool
  | .coordinatesIncompatible | .obsIncompatible | .axesIncompatible => true
  | _ => false

/-- `np.all(np.abs(limits1 - limits2) < 1e-8)` (space.py:2571-2578). -/
def limitsClose (l1 l2 : List Rat × List Rat) : Bool :=
  (List.zipWith (fun a b => decide (|a - b| < 1 / 100000000)) l1.1 l2.1).all id &&
    (List.zipWith (fun a b => decide (|a - b| < 1 / 100000000)) l1.2 l2.2).all id

/-- `compare_spaces_equal_static` (space.py:2554-2578).  Arrays of different shape: numpy raises, and the exception is
turned into `False`; after a successful `with_coords` without sub- and supersets the shapes agree. -/
def Space.eqStatic (s1 s2 : Space) : Except Err Bool :=
  match s2.withCoords s1.coords false false with
  | .error e => if isCoordinatesIncompatible e then .ok false else .error e
  | .ok s2' =>
    match s1.rectLimits, s2'.rectLimits with
    | .ok l1, .ok l2 => .ok (limitsClose l1 l2)
    | _, _ => .ok false

/-- `compare_multispace` (space.py:2581-2612) for two `Space` objects of which at least one has no limits:
`compare_limits_multispace` then returns `False` (space.py:2615-2619, `len` of a space without limits is 0). -/
def Space.compareNoLimits (s1 s2 : Space) : Bool :=
  let sameObs := match s1.coords.obs, s2.coords.obs with
    | some a, some b => some (a.all (· ∈ b) && b.all (· ∈ a))
    | _, _ => none
  let sameAxes := match s1.coords.axes, s2.coords.axes with
    | some a, some b => some (a.all (· ∈ b) && b.all (· ∈ a))
    | _, _ => none
  match sameObs.or sameAxes with
  | none => false
  | some false => false
  | some true =>
    if !s1.limitsAreSet then !s2.limitsAreSet
    else if s1.limitsAreFalse then s2.limitsAreFalse
    else false

/-- `BaseSpace.__eq__` (space.py:1149-1159) with `equal_space` (2539-2551) for two `Space` objects with rectangular,
missing or `False` limits: the static comparison if the limits of both can be read, `compare_multispace` otherwise. -/
def Space.eq (s1 s2 : Space) : Except Err Bool :=
  match s1.rectLimits, s2.rectLimits with
  | .ok _, .ok _ => s1.eqStatic s2
  | _, _ => .ok (s1.compareNoLimits s2)

/-- What `BaseSpace.__hash__` (space.py:1196-1198) hashes: the keys of the limits dictionaries in insertion order.  The
hash of a `Limit` (space.py:741-747) uses the limit function (`None`/`False` for rectangles) and its dimension only, and the hash of the
coordinates is constant. -/
def Space.hashKey (s : Space) : Option (List String) × Option (List Int) :=
  (s.obsLim.map (·.map (·.1)), s.axLim.map (·.map (·.1)))

/-! ## `combine_spaces` -/

/-- `common_obs` (dimension.py:99-123): the observables in order of appearance; `none` for `False`. -/
def commonObs : List Space → Option (List String)
  | spaces => spaces.foldl (fun acc s =>
      match acc, s.coords.obs with
      | some acc, some o => some (o.foldl (fun acc ob => if ob ∈ acc then acc else acc ++ [ob]) acc)
      | _, _ => none) (some [])

/-- `set.remove` for every element of `l`: `KeyError` if absent. -/
def removeAll (set : List String) : List String → Except Err (List String)
  | [] => .ok set
  | c :: cs => if c ∈ set then removeAll (set.filter (· ≠ c)) cs else .error .keyError

/-- `dict.update`. -/
def dictUpdate {κ ν : Type} [DecidableEq κ] (d e : List (κ × ν)) : List (κ × ν) :=
  e.foldl (fun d p => dictSet d p.1 p.2) d

/-- `get_coord(space, using_obs=True)`. -/
def obsOf (s : Space) : List String := s.coords.obs.getD []

/-- The variables of the loop in `combine_spaces` (space.py:2396-2404). -/
structure CombineState where
  limits : List (String × Lim)
  nonUnique : List String
  unique : List String
  deriving DecidableEq, Repr

/-- `any(non_unique_subspaces[0] != space for space in non_unique_subspaces[1:])` (space.py:2431). -/
def anyNotEqual (first : Space) : List Space → Except Err Bool
  | [] => .ok false
  | s :: ss => do
    let b ← first.eq s
    if b then anyNotEqual first ss else return true

/-- The branch for a coordinate of a single space (space.py:2407-2415). -/
def combineUnique (spaces : List Space) (st : CombineState) (c : String) : Except Err CombineState :=
  match spaces.find? (fun s => decide (c ∈ obsOf s)) with
  | none => .error .runtimeError
  | some s => do
    let sub ← s.subspaceObs st.unique
    let u ← removeAll st.unique (obsOf sub)
    return { st with limits := dictUpdate st.limits (sub.obsLim.getD []), unique := u }

/-- `set.intersection` of the observables of the spaces; the set is listed in the order of the first space. -/
def intersectObs : List Space → List String
  | [] => []
  | s :: ss => (obsOf s).filter (fun o => ss.all (fun t => decide (o ∈ obsOf t)))

/-- The branch for a coordinate of several spaces (space.py:2416-2441). -/
def combineShared (spaces : List Space) (st : CombineState) (c : String) : Except Err CombineState := do
  let withC := spaces.filter (fun s => decide (c ∈ obsOf s))
  let subs ← withC.mapM (fun s => s.subspaceObs (intersectObs withC))
  match subs with
  | [] => throw .indexError
  | first :: rest => do
    let ne ← anyNotEqual first rest
    if ne then throw .limitsIncompatible
    let u ← removeAll st.nonUnique (obsOf first)
    return { st with limits := dictUpdate st.limits (first.obsLim.getD []), nonUnique := u }

/-- One pass of the loop over the coordinates (space.py:2406-2443). -/
def combineStep (spaces : List Space) (st : CombineState) (c : String) : Except Err CombineState :=
  if c ∈ st.unique then combineUnique spaces st c
  else if c ∈ st.nonUnique then combineShared spaces st c
  else .ok st

/-- `combine_spaces` (space.py:2303-2528) for `Space` objects with observables. -/
def combineSpaces (spaces : List Space) : Except Err Space := do
  match commonObs spaces with
  | none => throw .coordinatesUnderdefined
  | some common =>
    let spaces ← spaces.mapM (fun s => s.withObs (some common) true true)
    if spaces.all (·.limitsAreFalse) then Space.make (some common) none .false
    else if spaces.all (fun s => !s.limitsAreSet) then Space.make (some common) none .none
    else if !spaces.all (·.hasLimits) then throw .limitsNotSpecified
    else
      let count (c : String) : Nat := (spaces.filter (fun s => decide (c ∈ obsOf s))).length
      let st ← common.foldlM (combineStep spaces)
        ⟨[], common.filter (fun c => decide (1 < count c)), common.filter (fun c => ¬ decide (1 < count c))⟩
      Space.make (some common) none (.dict (some st.limits) none)

end Zfit.Sp
