import Verif.Common.Py
import Verif.Common.Except
import Mathlib.Data.List.Dedup

/-! C32: making PDFs extended, over every history of calls (zfit/core/basepdf.py). -/

namespace Zfit.Pdf

open Zfit

/-- A parameter: the object and its name. -/
structure PRef where
  id : Nat
  name : String
  deriving DecidableEq, Repr

/-- The part of a PDF that matters for extending: all the parameters it depends on, and its yield
(basepdf.py:150-190). -/
structure EPdf where
  params : List PRef
  yield : Option PRef
  deriving DecidableEq, Repr

/-- `is_extended` (basepdf.py:764-771). -/
def EPdf.isExtended (p : EPdf) : Bool := p.yield.isSome

/-- `_assert_params_unique` (baseobject.py:119-133): no two different parameters with the same name. -/
def EPdf.namesUnique (p : EPdf) : Bool := decide (((p.params ++ p.yield.toList).dedup.map (·.name)).Nodup)

/-- `_set_yield` (basepdf.py:750-762): the PDF after the call and the exception, if any.  The argument `none` is
`None`; the conversion to a parameter has been done. -/
def EPdf.setYield (p : EPdf) (value : Option PRef) : EPdf × Option Err :=
  match value with
  | none => (p, some .breakingApiChange)
  | some v =>
    if p.isExtended then (p, some .alreadyExtended)
    else
      let p' := { p with yield := some v }
      if p'.namesUnique then (p', none) else (p', some .paramNameNotUnique)

/-- The calls a user can make on the PDFs created so far (by their position). `copies` says whether `copy` works for
this PDF. -/
inductive ExtOp
  | setYield (i : Nat) (value : Option PRef)
  | createExtended (i : Nat) (value : Option PRef) (copies : Bool)

/-- `create_extended` (basepdf.py:677-727): the new PDF or the exception. -/
def EPdf.createExtended (p : EPdf) (value : Option PRef) (copies : Bool) : Except Err EPdf :=
  if p.isExtended then .error .alreadyExtended
  else if copies then
    match ({ params := p.params, yield := none } : EPdf).setYield value with
    | (q, none) => .ok q
    | (_, some e) => .error e
  else .error .runtimeError

/-- One call: the PDFs afterwards (a new one is appended) and the exception, if any. -/
def extStep (s : List EPdf) : ExtOp → List EPdf × Option Err
  | .setYield i value =>
    match s[i]? with
    | none => (s, some .indexError)
    | some p => (s.set i (p.setYield value).1, (p.setYield value).2)
  | .createExtended i value copies =>
    match s[i]? with
    | none => (s, some .indexError)
    | some p =>
      match p.createExtended value copies with
      | .ok q => (s ++ [q], none)
      | .error e => (s, some e)

def extRun (s : List EPdf) (ops : List ExtOp) : List EPdf := ops.foldl (fun s op => (extStep s op).1) s

/-! ### Properties -/

theorem setYield_extended (p : EPdf) (hp : p.isExtended = true) (v : Option PRef) :
    (p.setYield v).1 = p ∧ (p.setYield v).2 ≠ none := by
  unfold EPdf.setYield
  cases v with
  | none => simp
  | some v => simp [hp]

theorem extStep_keeps (s : List EPdf) (op : ExtOp) (i : Nat) (p : EPdf) (hi : s[i]? = some p)
    (hp : p.isExtended = true) : (extStep s op).1[i]? = some p := by
  have hlt : i < s.length := by
    rw [List.getElem?_eq_some_iff] at hi
    exact hi.1
  cases op with
  | setYield j v =>
    unfold extStep
    simp only
    split
    · exact hi
    · rename_i q hq
      simp only
      by_cases hij : i = j
      · subst hij
        rw [hi] at hq
        cases hq
        rw [(setYield_extended _ hp v).1]
        rw [List.getElem?_set_self hlt]
      · rw [List.getElem?_set_ne (Ne.symm hij)]
        exact hi
  | createExtended j v c =>
    unfold extStep
    simp only
    split
    · exact hi
    · split
      · simp only
        rw [List.getElem?_append_left hlt]
        exact hi
      · exact hi

/-- C32: once a PDF has a yield it keeps this one in every history of further calls. -/
theorem extended_only_once (s : List EPdf) (ops : List ExtOp) (i : Nat) (p : EPdf) (y : PRef) (hi : s[i]? = some p)
    (hy : p.yield = some y) : ∃ q, (extRun s ops)[i]? = some q ∧ q.yield = some y ∧ q = p := by
  refine ⟨p, ?_, hy, rfl⟩
  have hp : p.isExtended = true := by simp [EPdf.isExtended, hy]
  unfold extRun
  induction ops generalizing s with
  | nil => exact hi
  | cons op ops ih => exact ih _ (extStep_keeps s op i p hi hp)

/-- C32: a further attempt raises and changes no PDF, by `set_yield` or `create_extended`. -/
theorem second_yield_refused (s : List EPdf) (i : Nat) (p : EPdf) (hi : s[i]? = some p) (hp : p.isExtended = true)
    (v : PRef) (c : Bool) :
    extStep s (.setYield i (some v)) = (s, some .alreadyExtended) ∧
    extStep s (.createExtended i (some v) c) = (s, some .alreadyExtended) := by
  have hlt : i < s.length := (List.getElem?_eq_some_iff.1 hi).1
  constructor
  · unfold extStep
    simp only [hi, EPdf.setYield, hp, if_true]
    congr 1
    apply List.ext_getElem?
    intro j
    by_cases hj : i = j
    · subst hj; rw [List.getElem?_set_self hlt, hi]
    · rw [List.getElem?_set_ne hj]
  · unfold extStep EPdf.createExtended
    simp [hi, hp]

/-- C32: `create_extended` never changes a PDF that exists; if it succeeds there is one more, with the same parameters
and the given yield, and no two of its parameters share a name. -/
theorem create_extended_new (s : List EPdf) (i : Nat) (v : Option PRef) (c : Bool) :
    (∃ e, extStep s (.createExtended i v c) = (s, some e)) ∨
    (∃ p y q, s[i]? = some p ∧ v = some y ∧ p.yield = none ∧ q.params = p.params ∧ q.yield = some y ∧ q.namesUnique = true ∧
      extStep s (.createExtended i v c) = (s ++ [q], none)) := by
  unfold extStep
  simp only
  split
  · exact .inl ⟨_, rfl⟩
  · rename_i p hp
    unfold EPdf.createExtended
    split
    · rename_i q hq
      split at hq
      · cases hq
      · rename_i hne
        split at hq
        · split at hq
          · rename_i q' hq'
            cases hq
            refine .inr ⟨p, ?_⟩
            unfold EPdf.setYield at hq'
            cases v with
            | none => simp at hq'
            | some y =>
              simp only [EPdf.isExtended, Option.isSome_none, Bool.false_eq_true, if_false] at hq'
              split at hq'
              · rename_i hu
                simp only [Prod.mk.injEq, and_true] at hq'
                subst hq'
                refine ⟨y, ⟨p.params, some y⟩, hp, rfl, ?_, rfl, rfl, hu, rfl⟩
                simpa [EPdf.isExtended] using hne
              · simp at hq'
          · cases hq
        · cases hq
    · exact .inl ⟨_, rfl⟩

/-- C32, a successful `set_yield` on a PDF without yield. -/
theorem set_yield_sets (p : EPdf) (hp : p.yield = none) (v : PRef) (hu : ({ p with yield := some v } : EPdf).namesUnique = true) :
    p.setYield (some v) = ({ p with yield := some v }, none) := by
  unfold EPdf.setYield
  simp [EPdf.isExtended, hp, hu]

/-- C32 is violated: a refused `set_yield` (the yield has the name of another parameter) leaves the PDF extended with
the refused yield, so that no other yield can be set any more. -/
theorem refused_yield_stays_violated :
    let p : EPdf := ⟨[⟨0, "n"⟩], none⟩
    (p.setYield (some ⟨1, "n"⟩)).2 = some .paramNameNotUnique ∧ (p.setYield (some ⟨1, "n"⟩)).1.isExtended = true ∧
      ((p.setYield (some ⟨1, "n"⟩)).1.setYield (some ⟨2, "good"⟩)).2 = some .alreadyExtended := by decide

example : extRun [⟨[⟨0, "mu"⟩], none⟩] [.createExtended 0 (some ⟨1, "n"⟩) true, .setYield 1 (some ⟨2, "m"⟩),
    .setYield 0 (some ⟨2, "m"⟩), .createExtended 0 (some ⟨1, "n"⟩) true] =
    [⟨[⟨0, "mu"⟩], some ⟨2, "m"⟩⟩, ⟨[⟨0, "mu"⟩], some ⟨1, "n"⟩⟩] := by decide

end Zfit.Pdf
