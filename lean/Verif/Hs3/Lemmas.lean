import Verif.Hs3.Model
import Mathlib.Data.List.Infix
import Mathlib.Tactic.Common

/-! Lemmas about saving and loading. -/

namespace Zfit.Hs3

open Zfit

variable {α β γ C : Type}

mutual
theorem Obj.map_map (f : α → β) (g : β → γ) (o : Obj α) : (o.map f).map g = o.map (fun a => g (f a)) := by
  cases o with
  | param a => rfl
  | make t as => simp only [Obj.map, Objs.map_map f g as]
theorem Objs.map_map (f : α → β) (g : β → γ) (os : Objs α) : (os.map f).map g = os.map (fun a => g (f a)) := by
  cases os with
  | nil => rfl
  | cons o os => simp only [Objs.map, Obj.map_map f g o, Objs.map_map f g os]
end

mutual
theorem Obj.map_congr (f g : α → β) (o : Obj α) (h : ∀ a ∈ o.params, f a = g a) : o.map f = o.map g := by
  cases o with
  | param a => simp only [Obj.map, h a (by simp [Obj.params])]
  | make t as => simp only [Obj.map, Objs.map_congr f g as (by simpa [Obj.params] using h)]
theorem Objs.map_congr (f g : α → β) (os : Objs α) (h : ∀ a ∈ os.params, f a = g a) : os.map f = os.map g := by
  cases os with
  | nil => rfl
  | cons o os =>
    simp only [Objs.params, List.mem_append] at h
    simp only [Objs.map, Obj.map_congr f g o (fun a ha => h a (.inl ha)), Objs.map_congr f g os (fun a ha => h a (.inr ha))]
end

mutual
theorem Obj.params_map (f : α → β) (o : Obj α) : (o.map f).params = o.params.map f := by
  cases o with
  | param a => rfl
  | make t as => simp only [Obj.map, Obj.params, Objs.params_map f as]
theorem Objs.params_map (f : α → β) (os : Objs α) : (os.map f).params = os.params.map f := by
  cases os with
  | nil => rfl
  | cons o os => simp only [Objs.map, Objs.params, Obj.params_map f o, Objs.params_map f os, List.map_append]
end

/-! ### loading -/

/-- The parameter known under a name. -/
def Store.known (s : Store C) (n : String) : Option Nat := s.existing.bind (dictGet · n)

/-- What holds while a document is loaded that began with the parameters `h0` and the reused ones `r`. -/
structure Inv (h0 : List (String × C)) (r : List (String × Nat)) (vars : List (String × C)) (s : Store C) : Prop where
  some : s.existing.isSome
  heap : h0 <+: s.heap
  old : ∀ n i, dictGet r n = .some i → s.known n = .some i
  new : ∀ n i, s.known n = .some i → dictGet r n = none →
    h0.length ≤ i ∧ ∃ c, dictGet vars n = .some c ∧ s.heap[i]? = .some (n, c)

/-- Nothing known is forgotten. -/
def Le (s s' : Store C) : Prop := ∀ n i, s.known n = some i → s'.known n = some i

theorem Le.refl (s : Store C) : Le s s := fun _ _ h => h
theorem Le.trans {s s' s'' : Store C} (h : Le s s') (h' : Le s' s'') : Le s s'' := fun n i e => h' n i (h n i e)

theorem getParam_spec (h0 : List (String × C)) (r : List (String × Nat)) (vars : List (String × C)) (s : Store C)
    (hs : Inv h0 r vars s) (n : String) (c : C) (hc : dictGet vars n = some c) :
    ∃ s' i, getParam s n c = (s', .ok i) ∧ Inv h0 r vars s' ∧ Le s s' ∧ s'.known n = some i := by
  obtain ⟨d, hd⟩ := Option.isSome_iff_exists.mp hs.some
  unfold getParam
  rw [hd]
  dsimp only
  cases hg : dictGet d n with
  | some i => exact ⟨s, i, rfl, hs, Le.refl s, by simp [Store.known, hd, hg]⟩
  | none =>
    have hk : s.known n = none := by simp [Store.known, hd, hg]
    have known' : ∀ m, (Store.known { heap := s.heap ++ [(n, c)], existing := some (dictSet d n s.heap.length) } m : Option Nat)
        = if m = n then some s.heap.length else s.known m := by
      intro m
      simp only [Store.known, Option.bind_some, hd]
      split
      · rename_i h; subst h; exact dictGet_set_self _ _ _
      · rename_i h; exact dictGet_set_ne _ _ _ _ h
    refine ⟨_, _, rfl, ⟨rfl, hs.heap.trans (List.prefix_append _ _), ?_, ?_⟩, ?_, ?_⟩
    · intro m i hm
      rw [known']
      have := hs.old m i hm
      split
      · rename_i h; subst h; rw [hk] at this; cases this
      · exact this
    · intro m i hm hr
      rw [known'] at hm
      split at hm
      · rename_i h
        subst h
        cases hm
        exact ⟨hs.heap.length_le, c, hc, by simp⟩
      · obtain ⟨h1, c', h2, h3⟩ := hs.new m i hm hr
        exact ⟨h1, c', h2, List.getElem?_append_left ((List.getElem?_eq_some_iff.mp h3).1) ▸ h3⟩
    · intro m i hm
      rw [known']
      split
      · rename_i h; subst h; rw [hk] at hm; cases hm
      · exact hm
    · rw [known']; simp

/-- What the names of an object are loaded as. -/
def pick (s : Store C) (n : String) : Nat := (s.known n).getD 0

theorem pick_le {s s' : Store C} (h : Le s s') (n : String) (hn : (s.known n).isSome) : pick s n = pick s' n := by
  obtain ⟨i, hi⟩ := Option.isSome_iff_exists.mp hn
  simp [pick, hi, h n i hi]

variable (h0 : List (String × C)) (r : List (String × Nat)) (vars : List (String × C)) (accepts : String → Objs Nat → Bool)

mutual
theorem loadObj_spec (s : Store C) (hs : Inv h0 r vars s) (o : Obj String) :
    Inv h0 r vars (loadObj vars accepts s o).1 ∧ Le s (loadObj vars accepts s o).1 ∧
    ∀ o', (loadObj vars accepts s o).2 = .ok o' →
      (∀ n ∈ o.params, ((loadObj vars accepts s o).1.known n).isSome) ∧ o' = o.map (pick (loadObj vars accepts s o).1) := by
  cases o with
  | param n =>
    unfold loadObj
    cases hc : dictGet vars n with
    | none => exact ⟨hs, Le.refl s, fun o' h => by cases h⟩
    | some c =>
      obtain ⟨s', i, he, hi, hl, hk⟩ := getParam_spec h0 r vars s hs n c hc
      dsimp only
      rw [he]
      refine ⟨hi, hl, fun o' h => ?_⟩
      cases h
      simp [Obj.params, Obj.map, pick, hk]
  | make t as =>
    have ih := loadObjs_spec s hs as
    unfold loadObj
    rcases hl : loadObjs vars accepts s as with ⟨s', e | as'⟩
    · rw [hl] at ih
      exact ⟨ih.1, ih.2.1, fun o' h => by cases h⟩
    · rw [hl] at ih
      dsimp only at ih ⊢
      split
      · refine ⟨ih.1, ih.2.1, fun o' h => ?_⟩
        cases h
        obtain ⟨a, b⟩ := ih.2.2 as' rfl
        exact ⟨by simpa [Obj.params] using a, by rw [Obj.map, ← b]⟩
      · exact ⟨ih.1, ih.2.1, fun o' h => by cases h⟩
theorem loadObjs_spec (s : Store C) (hs : Inv h0 r vars s) (os : Objs String) :
    Inv h0 r vars (loadObjs vars accepts s os).1 ∧ Le s (loadObjs vars accepts s os).1 ∧
    ∀ os', (loadObjs vars accepts s os).2 = .ok os' →
      (∀ n ∈ os.params, ((loadObjs vars accepts s os).1.known n).isSome) ∧ os' = os.map (pick (loadObjs vars accepts s os).1) := by
  cases os with
  | nil =>
    unfold loadObjs
    exact ⟨hs, Le.refl s, fun o' h => by cases h; simp [Objs.params, Objs.map]⟩
  | cons o os =>
    have ih := loadObj_spec s hs o
    unfold loadObjs
    rcases hl : loadObj vars accepts s o with ⟨s', e | o'⟩
    · rw [hl] at ih
      exact ⟨ih.1, ih.2.1, fun o' h => by cases h⟩
    · rw [hl] at ih
      dsimp only at ih ⊢
      have ih2 := loadObjs_spec s' ih.1 os
      rcases hl2 : loadObjs vars accepts s' os with ⟨s'', e | os'⟩
      · rw [hl2] at ih2
        exact ⟨ih2.1, ih.2.1.trans ih2.2.1, fun o' h => by cases h⟩
      · rw [hl2] at ih2
        dsimp only at ih2 ⊢
        refine ⟨ih2.1, ih.2.1.trans ih2.2.1, fun o' h => ?_⟩
        cases h
        obtain ⟨a, b⟩ := ih.2.2 _ rfl
        obtain ⟨a2, b2⟩ := ih2.2.2 _ rfl
        constructor
        · intro n hn
          simp only [Objs.params, List.mem_append] at hn
          rcases hn with hn | hn
          · obtain ⟨i, hi⟩ := Option.isSome_iff_exists.mp (a n hn)
            rw [ih2.2.1 n i hi]; rfl
          · exact a2 n hn
        · rw [Objs.map, ← b2, b, Obj.map_congr (pick s'') (pick s') o (fun n hn => (pick_le ih2.2.1 n (a n hn)).symm)]
end

theorem loadObjects_spec (s : Store C) (hs : Inv h0 r vars s) (os : List (String × Obj String)) :
    Inv h0 r vars (loadObjects vars accepts s os).1 ∧ Le s (loadObjects vars accepts s os).1 ∧
    ∀ os', (loadObjects vars accepts s os).2 = .ok os' →
      os' = os.map fun p => (p.1, p.2.map (pick (loadObjects vars accepts s os).1)) := by
  induction os generalizing s with
  | nil => exact ⟨hs, Le.refl s, fun o' h => by cases h; rfl⟩
  | cons p os ih =>
    obtain ⟨k, o⟩ := p
    have ih1 := loadObj_spec h0 r vars accepts s hs o
    unfold loadObjects
    rcases hl : loadObj vars accepts s o with ⟨s', e | o'⟩
    · rw [hl] at ih1
      exact ⟨ih1.1, ih1.2.1, fun o' h => by cases h⟩
    · rw [hl] at ih1
      dsimp only at ih1 ⊢
      have ih2 := ih s' ih1.1
      rcases hl2 : loadObjects vars accepts s' os with ⟨s'', e | os'⟩
      · rw [hl2] at ih2
        exact ⟨ih2.1, ih1.2.1.trans ih2.2.1, fun o' h => by cases h⟩
      · rw [hl2] at ih2
        dsimp only at ih2 ⊢
        refine ⟨ih2.1, ih1.2.1.trans ih2.2.1, fun o' h => ?_⟩
        cases h
        obtain ⟨a, b⟩ := ih1.2.2 _ rfl
        have b2 := ih2.2.2 _ rfl
        rw [List.map_cons, ← b2, b, Obj.map_congr (pick s'') (pick s') o (fun n hn => (pick_le ih2.2.1 n (a n hn)).symm)]

theorem loadVariables_spec (s : Store C) (hs : Inv h0 r vars s) (vs : List (String × C))
    (hv : ∀ p ∈ vs, dictGet vars p.1 = some p.2) :
    ∃ s', loadVariables s vs = (s', .ok (vs.map fun p => (p.1, pick s' p.1))) ∧ Inv h0 r vars s' ∧ Le s s' ∧
      ∀ p ∈ vs, (s'.known p.1).isSome := by
  induction vs generalizing s with
  | nil => exact ⟨s, rfl, hs, Le.refl s, by simp⟩
  | cons p vs ih =>
    obtain ⟨n, c⟩ := p
    obtain ⟨s', i, he, hi, hl, hk⟩ := getParam_spec h0 r vars s hs n c (hv (n, c) List.mem_cons_self)
    obtain ⟨s'', he2, hi2, hl2, hk2⟩ := ih s' hi (fun p hp => hv p (List.mem_cons_of_mem _ hp))
    have hn : s''.known n = some i := hl2 n i hk
    refine ⟨s'', ?_, hi2, hl.trans hl2, ?_⟩
    · unfold loadVariables
      rw [he]; dsimp only
      rw [he2]
      simp [pick, hn]
    · intro p hp
      rcases List.mem_cons.mp hp with rfl | hp
      · simp [hn]
      · exact hk2 p hp

/-! ### dictionaries -/

theorem dictGet_of_mem_nodup (d : List (String × C)) (h : (d.map Prod.fst).Nodup) (p : String × C) (hp : p ∈ d) :
    dictGet d p.1 = some p.2 := by
  induction d with
  | nil => cases hp
  | cons q d ih =>
    simp only [List.map_cons, List.nodup_cons] at h
    rcases List.mem_cons.mp hp with rfl | hp
    · simp [dictGet]
    · have hne : q.1 ≠ p.1 := by
        intro e
        apply h.1
        rw [e]
        exact List.mem_map_of_mem hp
      have := ih h.2 hp
      simp only [dictGet, List.find?_cons, hne, decide_false] at this ⊢
      exact this

theorem mem_of_dictGet (d : List (String × C)) (n : String) (c : C) (h : dictGet d n = some c) : (n, c) ∈ d := by
  unfold dictGet at h
  obtain ⟨p, hp, rfl⟩ := Option.map_eq_some_iff.mp h
  have := List.find?_some hp
  simp only [decide_eq_true_eq] at this
  subst this
  exact List.mem_of_find?_eq_some hp

/-- The dictionary of reused parameters: it has the names given, each with a parameter of that name that was given. -/
theorem reuseDict_spec (heap : List (String × C)) (reuse : List Nat) :
    (∀ n i, dictGet (reuseDict heap reuse) n = some i → i ∈ reuse ∧ nameOf heap i = n) ∧
    (∀ i ∈ reuse, (dictGet (reuseDict heap reuse) (nameOf heap i)).isSome) := by
  unfold reuseDict
  induction reuse using List.reverseRecOn with
  | nil => simp [dictGet]
  | append_singleton l a ih =>
    rw [List.foldl_concat]
    constructor
    · intro n i h
      by_cases hn : n = nameOf heap a
      · subst hn
        rw [dictGet_set_self] at h
        cases h
        simp
      · rw [dictGet_set_ne _ _ _ _ hn] at h
        obtain ⟨h1, h2⟩ := ih.1 n i h
        exact ⟨List.mem_append_left _ h1, h2⟩
    · intro i hi
      by_cases hn : nameOf heap i = nameOf heap a
      · rw [hn, dictGet_set_self]; rfl
      · rw [dictGet_set_ne _ _ _ _ hn]
        rcases List.mem_append.mp hi with hi | hi
        · exact ih.2 i hi
        · simp only [List.mem_singleton] at hi
          subst hi
          exact absurd rfl hn

/-- A load as a whole: it starts in a state with what `reuseDict` says. -/
theorem inv_start (s : Store C) (reuse : List Nat) (vs : List (String × C)) :
    Inv s.heap (reuseDict s.heap reuse) vs { s with existing := some (reuseDict s.heap reuse) } where
  some := rfl
  heap := List.prefix_refl _
  old := fun n i h => by simpa [Store.known] using h
  new := fun n i h h' => by simp [Store.known, h'] at h

/-- What every load does to the store. -/
theorem loadBody_store (doc : Doc C) (hd : (doc.variables.map Prod.fst).Nodup) (reuse : List Nat) (s : Store C) :
    Inv s.heap (reuseDict s.heap reuse) doc.variables (loadBody accepts doc { s with existing := some (reuseDict s.heap reuse) }).1 ∧
    ∀ vs os, (loadBody accepts doc { s with existing := some (reuseDict s.heap reuse) }).2 = .ok (vs, os) →
      vs = doc.variables.map (fun p => (p.1, pick (loadBody accepts doc { s with existing := some (reuseDict s.heap reuse) }).1 p.1)) ∧
      os = doc.objects.map (fun p => (p.1, p.2.map (pick (loadBody accepts doc { s with existing := some (reuseDict s.heap reuse) }).1))) ∧
      ∀ p ∈ doc.variables, ((loadBody accepts doc { s with existing := some (reuseDict s.heap reuse) }).1.known p.1).isSome := by
  obtain ⟨s', he, hi, hl, hk⟩ := loadVariables_spec s.heap (reuseDict s.heap reuse) doc.variables _ (inv_start s reuse doc.variables)
    doc.variables (fun p hp => dictGet_of_mem_nodup _ hd p hp)
  have h2 := loadObjects_spec s.heap (reuseDict s.heap reuse) doc.variables accepts s' hi doc.objects
  unfold loadBody
  rw [he]
  dsimp only
  rcases hl2 : loadObjects doc.variables accepts s' doc.objects with ⟨s'', e | os'⟩
  · rw [hl2] at h2
    exact ⟨h2.1, fun vs os h => by cases h⟩
  · rw [hl2] at h2
    dsimp only at h2 ⊢
    refine ⟨h2.1, fun vs os h => ?_⟩
    cases h
    refine ⟨?_, h2.2.2 _ rfl, ?_⟩
    · apply List.map_congr_left
      intro p hp
      rw [pick_le h2.2.1 p.1 (hk p hp)]
    · intro p hp
      obtain ⟨i, hi⟩ := Option.isSome_iff_exists.mp (hk p hp)
      rw [h2.2.1 _ _ hi]; rfl

end Zfit.Hs3
