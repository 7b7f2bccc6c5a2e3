import Verif.Args.ContainerModel

/-!
# Property C315 (see /verif/properties.jsonl): one thing or several
-/

namespace Zfit.Cont

open Zfit

/-! ### Specification -/

/-- What counts as one thing: `None` aside, an instance of the types that are listed, or what is not iterable. -/
def One (o : Obj) : Prop := (∃ name, o.ty = .listed name) ∨ (∃ name, o.ty = .other name ∧ o.items = .error .typeError)

/-- An object that is a container with the given things. -/
def Holds (o : Obj) (ids : List Nat) : Prop := (∀ name, o.ty ≠ .listed name) ∧ o.items = .ok ids

/-- The things that a result contains, as a user of it sees them: `none` for `None`. -/
def Result.things : Result → Option (List Nat)
  | .none => Option.none
  | .same o => o.items.toOption
  | .new _ ids => some ids

/-- The object that a new container is. -/
def Result.object (id : Nat) : Result → Option Obj
  | .none => Option.none
  | .same o => some o
  | .new c ids => some ⟨id, c.ty, .ok ids⟩

/-! ### Theorems -/

variable (noneId : Nat) (c : Container)

theorem listed_iff (t : Ty) : t.isListed = true ↔ ∃ name, t = .listed name := by cases t <;> simp [Ty.isListed]

theorem ty_not_listed (name : String) : Ty.listed name ≠ c.ty ∧ Ty.other name ≠ c.ty := by cases c <;> exact ⟨nofun, nofun⟩

/-- C315: one thing gives a container with this thing. -/
theorem one_thing (o : Obj) (h : One o) : convertTo noneId c (some o) = .ok (.new c [o.id]) := by
  unfold convertTo convert
  rcases h with ⟨name, h⟩ | ⟨name, h, hi⟩
  · simp only [h, (ty_not_listed c name).1, if_false, Ty.isListed, Bool.or_true, if_true, Bool.false_eq_true]
  · simp [h, (ty_not_listed c name).2, Ty.isListed, hi]

/-- C315: the things in a container, in their order; nothing is added, left out or exchanged. -/
theorem several_things (o : Obj) (ids : List Nat) (h : Holds o ids) : ∃ r, convertTo noneId c (some o) = .ok r ∧ r.things = some ids := by
  have hl : o.ty.isListed = false := by
    rw [← Bool.not_eq_true, listed_iff]
    rintro ⟨name, hn⟩
    exact h.1 name hn
  unfold convertTo convert
  by_cases hc : o.ty = c.ty
  · exact ⟨.same o, by simp [hc], by simp [Result.things, h.2, Except.toOption]⟩
  · exact ⟨.new c ids, by simp [hc, hl, h.2], rfl⟩

/-- C315: a list with one thing is the same as the thing. -/
theorem list_of_one (o l : Obj) (ho : One o) (hl : Holds l [o.id]) :
    (convertTo noneId c (some o)).toOption.bind Result.things = (convertTo noneId c (some l)).toOption.bind Result.things := by
  obtain ⟨r, hr, ht⟩ := several_things noneId c l _ hl
  rw [hr, one_thing noneId c o ho]
  show some [o.id] = r.things
  rw [ht]

/-- C315: `None` stays `None`, unless it is asked for as a thing. -/
theorem none_kept : convertTo noneId c none = .ok .none ∧ convert noneId c .none (fun _ => false) true none = .ok (.new c [noneId]) := ⟨rfl, rfl⟩

/-- C315: the result of a conversion is not changed by another one: the same object is returned. -/
theorem convert_again (v : Option Obj) (r : Result) (h : convertTo noneId c v = .ok r) (id : Nat) :
    convertTo noneId c (r.object id) = .ok (match r.object id with | some o => .same o | none => .none) := by
  cases r with
  | none => rfl
  | new c' ids =>
    have hc : c' = c := by
      revert h
      unfold convertTo convert
      cases v with
      | none => simp
      | some o =>
        simp only
        split
        · simp
        · split
          · simp
          · split
            · simp only [Except.ok.injEq, Result.new.injEq]; exact fun h => h.1.symm
            · split
              · simp only [Except.ok.injEq, Result.new.injEq]; exact fun h => h.1.symm
              · split
                · simp only [Except.ok.injEq, Result.new.injEq]; exact fun h => h.1.symm
                · simp
    subst hc
    show convertTo noneId c' (some ⟨id, c'.ty, .ok ids⟩) = _
    simp [convertTo, convert, Result.object]
  | same o =>
    have hc : o.ty = c.ty := by
      revert h
      unfold convertTo convert
      cases v with
      | none => simp
      | some o' =>
        simp only
        split
        · rename_i h1
          simp only [Except.ok.injEq, Result.same.injEq]
          rintro rfl
          exact h1
        · simp only [Bool.false_eq_true, if_false]
          split
          · simp
          · split
            · simp
            · split <;> simp
    show convertTo noneId c (some o) = .ok (.same o)
    simp [convertTo, convert, hc]

/-- C315: a container of the wanted type is returned itself, not a copy: with the same identity. -/
theorem same_object (o : Obj) (h : o.ty = c.ty) : convertTo noneId c (some o) = .ok (.same o) := by
  simp [convertTo, convert, h]

/-- C315: with types that do not count as containers (`non_containers`), such an object is one thing, with a type that is ignored it is returned; other
objects are treated as without. -/
theorem other_arguments (tys : List Ty) (ignore : Ty → Bool) (o : Obj) (ht : o.ty ≠ c.ty) :
    (ignore o.ty = true → convert noneId c (.list tys) ignore false (some o) = .ok (.same o)) ∧
    (ignore o.ty = false → o.ty ∈ tys → convert noneId c (.list tys) ignore false (some o) = .ok (.new c [o.id])) ∧
    (ignore o.ty = false → o.ty ∉ tys → convert noneId c (.list tys) ignore false (some o) = convertTo noneId c (some o)) := by
  refine ⟨fun h => by simp [convert, ht, h], fun h hm => by simp [convert, ht, h, hm], fun h hm => ?_⟩
  simp only [convertTo, convert, ht, h, hm, if_false, List.contains_eq_mem, decide_false, Bool.false_or, Bool.false_eq_true, List.not_mem_nil]

/-- C315, partly: an exception in iterating is passed on if it is not a `TypeError` or an `AttributeError`, and nothing else raises.  Missing: these two. -/
theorem iteration_error_partial (o : Obj) (e : Err) :
    convertTo noneId c (some o) = .error e ↔
      (o.ty ≠ c.ty ∧ (∀ name, o.ty ≠ .listed name) ∧ o.items = .error e ∧ e ≠ .typeError ∧ e ≠ .attributeError) := by
  have hl : (∀ name, o.ty ≠ .listed name) ↔ o.ty.isListed = false := by
    rw [← Bool.not_eq_true, listed_iff]
    simp
  rw [hl]
  unfold convertTo convert
  simp only
  by_cases hc : o.ty = c.ty
  · simp [hc]
  · by_cases h2 : o.ty.isListed = true
    · simp [hc, h2]
    · rw [Bool.not_eq_true] at h2
      cases hi : o.items with
      | ok ids => simp [hc, h2]
      | error e' =>
        by_cases he : e' = .typeError ∨ e' = .attributeError
        · simp only [hc, h2, he, if_false, if_true, Bool.false_eq_true, List.contains_nil, Bool.or_false, ne_eq, not_false_eq_true, true_and, Except.error.injEq,
            reduceCtorEq, false_iff, not_and]
          rintro rfl h3 h4
          exact he.elim h3 h4
        · simp only [hc, h2, he, if_false, Bool.false_eq_true, List.contains_nil, Bool.or_false, ne_eq, not_false_eq_true, true_and, Except.error.injEq]
          constructor
          · rintro rfl
            exact ⟨rfl, not_or.1 he⟩
          · rintro ⟨rfl, _⟩
            rfl

/-- C315 fails for generators in which a `TypeError` or an `AttributeError` is raised: the error is lost and the generator counts as one thing. -/
theorem iteration_error_violated (id : Nat) (name : String) :
    convertTo noneId c (some ⟨id, .other name, .error .attributeError⟩) = .ok (.new c [id]) ∧
      convertTo noneId c (some ⟨id, .other name, .error .typeError⟩) = .ok (.new c [id]) := by
  cases c <;> exact ⟨rfl, rfl⟩

/-- A parameter, a number, and a tuple of three. -/
example : One ⟨5, .listed "ZfitParameter", .error .typeError⟩ ∧ One (Obj.notIterable 6 (.other "float")) ∧ Holds ⟨7, .tuple, .ok [1, 2, 3]⟩ [1, 2, 3] :=
  ⟨.inl ⟨_, rfl⟩, .inr ⟨_, rfl, rfl⟩, nofun, rfl⟩

/-- A string is one thing, although it is iterable; a tuple of two is made a list, a set too. -/
example : convertTo 0 .list (some ⟨5, .listed "str", .ok [1, 2]⟩) = .ok (.new .list [5]) ∧
    convertTo 0 .list (some ⟨5, .tuple, .ok [1, 2]⟩) = .ok (.new .list [1, 2]) ∧ convertTo 0 .list (some ⟨5, .set, .ok [2]⟩) = .ok (.new .list [2]) ∧
    convertTo 0 .list (some ⟨5, .other "generator", .error .valueError⟩) = .error .valueError := by decide +kernel

end Zfit.Cont
