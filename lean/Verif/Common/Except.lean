import Verif.Common.Py

/-! Helper lemmas about `Except` and Python tuple access. -/

namespace Zfit

variable {α β : Type}

@[simp] theorem except_bind_ok {ε : Type} (a : α) (f : α → Except ε β) :
    (Except.ok a >>= f) = f a := rfl

@[simp] theorem except_bind_error {ε : Type} (e : ε) (f : α → Except ε β) :
    ((Except.error e : Except ε α) >>= f) = Except.error e := rfl

@[simp] theorem except_pure {ε : Type} (a : α) : (pure a : Except ε α) = Except.ok a := rfl

theorem bind_eq_ok {ε : Type} {x : Except ε α} {f : α → Except ε β} {b : β} :
    (x >>= f) = Except.ok b ↔ ∃ a, x = Except.ok a ∧ f a = Except.ok b := by
  cases x <;> simp

theorem mapM_ok_iff {ε : Type} (f : α → Except ε β) (l : List α) (r : List β) :
    l.mapM f = Except.ok r ↔ l.map f = r.map Except.ok := by
  induction l generalizing r with
  | nil => cases r <;> simp
  | cons x l ih =>
    simp only [List.mapM_cons, bind_eq_ok, except_pure, List.map_cons]
    constructor
    · rintro ⟨b, hb, bs, hbs, h⟩
      cases h
      simp [hb, (ih bs).1 hbs]
    · intro h
      cases r with
      | nil => simp at h
      | cons b bs =>
        simp only [List.map_cons, List.cons.injEq] at h
        exact ⟨b, h.1, bs, (ih bs).2 h.2, rfl⟩

theorem mapM_ok_of_forall {ε : Type} (f : α → Except ε β) (g : α → β) (l : List α)
    (h : ∀ x ∈ l, f x = Except.ok (g x)) : l.mapM f = Except.ok (l.map g) := by
  rw [mapM_ok_iff]
  simp only [List.map_map]
  exact List.map_congr_left h

theorem pyGet_ok {l : List α} {i : Nat} {a : α} : pyGet l i = .ok a ↔ l[i]? = some a := by
  unfold pyGet
  split <;> simp_all

theorem mapM_pyGet_ok {l : List α} {idx : List Nat} {r : List α} :
    idx.mapM (pyGet l) = .ok r ↔ idx.map (l[·]?) = r.map some := by
  rw [mapM_ok_iff]
  induction idx generalizing r with
  | nil => cases r <;> simp
  | cons i idx ih =>
    cases r with
    | nil => simp
    | cons b r =>
      simp only [List.map_cons, List.cons.injEq]
      rw [pyGet_ok, ih]

end Zfit
