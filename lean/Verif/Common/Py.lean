/-!
# Python values and exceptions used by the models

`Err` lists the exception classes of /repo/zfit/util/exception.py (and the Python built-ins) that the
modelled code raises.  Only the class is modelled, not the message.
-/

namespace Zfit

/-- Exception classes (zfit/util/exception.py, and Python built-ins). -/
inductive Err
  | valueError
  | typeError
  | keyError
  | indexError
  | attributeError
  | nameError
  | runtimeError
  | assertionError
  | unboundLocalError
  | notImplementedError
  | invalidArgument
  | userException
  | obsIncompatible
  | axesIncompatible
  | coordinatesIncompatible
  | coordinatesUnderdefined
  | overdefined
  | intentionAmbiguous
  | shapeIncompatible
  | numberOfEventsIncompatible
  | spaceIncompatible
  | limitsIncompatible
  | limitsNotSpecified
  | limitsOverdefined
  | multipleLimitsNotImplemented
  | normNotImplemented
  | normRangeNotImplemented
  | initNotImplemented
  | functionNotImplemented
  | analyticNotImplemented
  | modelIncompatible
  | breakingApiChange
  | workInProgress
  | alreadyExtended
  | notExtended
  | paramNameNotUnique
  | parameterNotIndependent
  | outsideLimits
  | maximumIterationReached
  | failMinimizeNaN
  | logicalUndefined
  | invalidLimitSubspace
  | limitsUnderdefined
  deriving DecidableEq, Repr

deriving instance DecidableEq for Except

/-- `old.index(o)` for a Python tuple or list: first position, `ValueError` if absent. -/
def pyIndex {α : Type} [DecidableEq α] (l : List α) (a : α) : Except Err Nat :=
  if a ∈ l then .ok (l.idxOf a) else .error .valueError

/-- `l[i]` for a Python tuple with `i ≥ 0`: `IndexError` if out of range. -/
def pyGet {α : Type} (l : List α) (i : Nat) : Except Err α :=
  match l[i]? with
  | some a => .ok a
  | none => .error .indexError

/-- Python `dict` lookup in an insertion-ordered association list. -/
def dictGet {κ ν : Type} [DecidableEq κ] (d : List (κ × ν)) (k : κ) : Option ν :=
  (d.find? (fun p => p.1 = k)).map (·.2)

/-- Python `d[k] = v`: replace in place if the key exists, else append at the end. -/
def dictSet {κ ν : Type} [DecidableEq κ] : List (κ × ν) → κ → ν → List (κ × ν)
  | [], k, v => [(k, v)]
  | (k', v') :: d, k, v => if k' = k then (k', v) :: d else (k', v') :: dictSet d k v

theorem dictGet_set_self {κ ν : Type} [DecidableEq κ] (d : List (κ × ν)) (k : κ) (v : ν) :
    dictGet (dictSet d k v) k = some v := by
  induction d with
  | nil => simp [dictSet, dictGet]
  | cons p d ih =>
    obtain ⟨k', v'⟩ := p
    unfold dictSet
    split
    · simp [dictGet, *]
    · rename_i h
      simp only [dictGet, List.find?_cons, h, decide_false] at ih ⊢
      exact ih

theorem dictGet_set_ne {κ ν : Type} [DecidableEq κ] (d : List (κ × ν)) (k k₂ : κ) (v : ν)
    (h : k₂ ≠ k) : dictGet (dictSet d k v) k₂ = dictGet d k₂ := by
  induction d with
  | nil => simp [dictSet, dictGet, Ne.symm h]
  | cons p d ih =>
    obtain ⟨k', v'⟩ := p
    unfold dictSet
    split
    · rename_i hk
      subst hk
      simp [dictGet, Ne.symm h]
    · rename_i hk
      simp only [dictGet, List.find?_cons] at ih ⊢
      split
      · rfl
      · exact ih

end Zfit
