import Verif.Hs3.Lemmas

/-! Properties of saving objects to and loading them from documents (C174-C178). -/

namespace Zfit.Hs3

open Zfit

variable {α C : Type}

/-! ## C174: nothing is lost to equal names -/

theorem uniqueFrom_append (addr : Nat → String) (i : Nat) (acc objs : List (String × α))
    (h : ((acc ++ objs).map Prod.fst).Nodup) : uniqueFrom addr i acc objs = acc ++ objs := by
  induction objs generalizing i acc with
  | nil => simp [uniqueFrom]
  | cons p rest ih =>
    obtain ⟨n, o⟩ := p
    have hn : ∀ q ∈ acc, q.1 ≠ n := by
      intro q hq e
      rw [List.map_append, List.nodup_append] at h
      exact h.2.2 q.1 (List.mem_map_of_mem hq) n (by simp) e
    have hget : dictGet acc n = none := by
      unfold dictGet
      rw [List.find?_eq_none.mpr (fun q hq => by simpa using hn q hq)]
      rfl
    have hset : dictSet acc n o = acc ++ [(n, o)] := by
      clear ih h hget
      induction acc with
      | nil => rfl
      | cons q acc ih =>
        obtain ⟨k, v⟩ := q
        have : k ≠ n := hn (k, v) List.mem_cons_self
        simp only [dictSet, this, if_false, List.cons_append]
        rw [ih (fun q hq => hn q (List.mem_cons_of_mem _ hq))]
    unfold uniqueFrom
    simp only [hget, Option.isSome_none, Bool.false_eq_true, if_false, hset]
    rw [ih (i + 1) (acc ++ [(n, o)]) (by simpa using h)]
    simp

/-- C174, what holds: objects with different names are all saved, in order and under their names. Missing from the full claim: the cases of
`three_alike_violated`. -/
theorem distinct_names_partial (addr : Nat → String) (objs : List (String × α)) (h : (objs.map Prod.fst).Nodup) :
    uniqueNames addr objs = objs := by
  unfold uniqueNames
  rw [uniqueFrom_append addr 0 [] objs (by simpa using h)]
  rfl

example : uniqueNames (fun _ => "<range_iterator object at 0x7f>") [("signal", 0), ("background", 1), ("tail", 2)]
    = [("signal", 0), ("background", 1), ("tail", 2)] := by decide

theorem first_from (addr : Nat → String) (n : String) (hn : ∀ m i, m ++ "_" ++ addr i ≠ n) (i : Nat) (acc objs : List (String × α)) :
    dictGet (uniqueFrom addr i acc objs) n = (dictGet acc n).or (dictGet objs n) := by
  induction objs generalizing i acc with
  | nil => simp [uniqueFrom, dictGet]
  | cons p rest ih =>
    obtain ⟨m, o⟩ := p
    unfold uniqueFrom
    dsimp only
    rw [ih]
    by_cases hm : m = n
    · subst hm
      cases ha : dictGet acc m with
      | none =>
        simp only [Option.isSome_none, Bool.false_eq_true, if_false, dictGet_set_self]
        simp [dictGet]
      | some a =>
        simp only [Option.isSome_some, if_true]
        rw [dictGet_set_ne _ _ _ _ (hn m i).symm, ha]
        simp
    · have e : dictGet ((m, o) :: rest) n = dictGet rest n := by simp [dictGet, hm]
      rw [e]
      congr 1
      split
      · exact dictGet_set_ne _ _ _ _ (hn m i).symm
      · exact dictGet_set_ne _ _ _ _ (Ne.symm hm)

/-- C174, what holds: the first object of each name is saved under its name (as long as no name looks like one made up for another). Missing
from the full claim: the cases of `three_alike_violated`. -/
theorem first_kept_partial (addr : Nat → String) (objs : List (String × α)) (n : String) (hn : ∀ m i, m ++ "_" ++ addr i ≠ n) :
    dictGet (uniqueNames addr objs) n = dictGet objs n := by
  unfold uniqueNames
  rw [first_from addr n hn]
  simp [dictGet]

/-- The hypothesis is met: made up names are longer than "g". -/
example (m : String) (i : Nat) : m ++ "_" ++ (fun _ : Nat => "<range_iterator object at 0x7f>") i ≠ "g" := by
  intro h
  have := congrArg String.length h
  simp only [String.length_append] at this
  have e : ("g" : String).length = 1 := by decide
  have e2 : ("<range_iterator object at 0x7f>" : String).length = 31 := by decide
  omega

/-- C174 fails: of three objects of the same name, the second is lost when the iterators of the second and third, which are thrown away
at once, had the same address. -/
theorem three_alike_violated (addr : Nat → String) (h : addr 1 = addr 2) (n : String) (a b c : α) :
    uniqueNames addr [(n, a), (n, b), (n, c)] = [(n, a), (n ++ "_" ++ addr 2, c)] := by
  have hne : n ≠ n ++ "_" ++ addr 2 := by
    intro e
    have := congrArg String.length e
    simp only [String.length_append] at this
    have e : ("_" : String).length = 1 := by decide
    omega
  simp [uniqueNames, uniqueFrom, dictGet, dictSet, h, hne]

/-! ## C175-C177: parameters of a load -/

/-- What a load does, in one statement. -/
theorem load_spec (accepts : String → Objs Nat → Bool) (doc : Doc C) (hd : (doc.variables.map Prod.fst).Nodup) (reuse : List Nat)
    (s : Store C) (hs : s.existing = none) (vs : List (String × Nat)) (os : List (String × Obj Nat))
    (h : (fromHs3 accepts doc reuse s).2 = .ok (vs, os)) :
    ∃ f : String → Nat,
      vs = doc.variables.map (fun p => (p.1, f p.1)) ∧ os = doc.objects.map (fun p => (p.1, p.2.map f)) ∧
      (∀ n i, dictGet (reuseDict s.heap reuse) n = some i → f n = i) ∧
      (∀ n c, dictGet doc.variables n = some c → dictGet (reuseDict s.heap reuse) n = none →
        s.heap.length ≤ f n ∧ (fromHs3 accepts doc reuse s).1.heap[f n]? = some (n, c)) := by
  obtain ⟨hi, hb⟩ := loadBody_store accepts doc hd reuse s
  have e : fromHs3 accepts doc reuse s
      = ({ (loadBody accepts doc { s with existing := some (reuseDict s.heap reuse) }).1 with existing := none },
        (loadBody accepts doc { s with existing := some (reuseDict s.heap reuse) }).2) := by
    unfold fromHs3 initialized
    rw [hs]
  rw [e] at h ⊢
  obtain ⟨h1, h2, h3⟩ := hb vs os h
  refine ⟨pick (loadBody accepts doc { s with existing := some (reuseDict s.heap reuse) }).1, h1, h2, ?_, ?_⟩
  · intro n i hn
    simp [pick, hi.old n i hn]
  · intro n c hc hr
    obtain ⟨i, hk⟩ := Option.isSome_iff_exists.mp (h3 (n, c) (mem_of_dictGet _ _ _ hc))
    obtain ⟨a, c', b, d⟩ := hi.new n i hk hr
    rw [hc] at b
    cases b
    simp only [pick, hk, Option.getD_some]
    exact ⟨a, d⟩

/-- C175: in what a load gives, a parameter is shared exactly where its name is: there is one parameter for each name of a variable,
used for the variable and at every place of every object with that name, and different names have different parameters. -/
theorem shared (accepts : String → Objs Nat → Bool) (doc : Doc C) (hd : (doc.variables.map Prod.fst).Nodup) (reuse : List Nat)
    (s : Store C) (hs : s.existing = none) (hr : ∀ i ∈ reuse, i < s.heap.length)
    (vs : List (String × Nat)) (os : List (String × Obj Nat)) (h : (fromHs3 accepts doc reuse s).2 = .ok (vs, os)) :
    ∃ f : String → Nat,
      vs = doc.variables.map (fun p => (p.1, f p.1)) ∧ os = doc.objects.map (fun p => (p.1, p.2.map f)) ∧
      ∀ p ∈ doc.variables, ∀ q ∈ doc.variables, f p.1 = f q.1 → p.1 = q.1 := by
  obtain ⟨f, h1, h2, h3, h4⟩ := load_spec accepts doc hd reuse s hs vs os h
  refine ⟨f, h1, h2, ?_⟩
  obtain ⟨hsp, _⟩ := reuseDict_spec s.heap reuse
  -- the parameter of a name is either given (then it is old and has that name) or new (and has that name)
  have key : ∀ p ∈ doc.variables, (f p.1 < s.heap.length ∧ nameOf s.heap (f p.1) = p.1) ∨
      (s.heap.length ≤ f p.1 ∧ nameOf (fromHs3 accepts doc reuse s).1.heap (f p.1) = p.1) := by
    intro p hp
    cases hg : dictGet (reuseDict s.heap reuse) p.1 with
    | some i =>
      obtain ⟨a, b⟩ := hsp _ _ hg
      left
      rw [h3 _ _ hg]
      exact ⟨hr i a, b⟩
    | none =>
      obtain ⟨a, b⟩ := h4 p.1 p.2 (dictGet_of_mem_nodup _ hd p hp) hg
      right
      exact ⟨a, by simp [nameOf, b]⟩
  intro p hp q hq e
  rcases key p hp with ⟨a, b⟩ | ⟨a, b⟩ <;> rcases key q hq with ⟨a', b'⟩ | ⟨a', b'⟩
  · rw [← b, ← b', e]
  · omega
  · omega
  · rw [← b, ← b', e]

theorem heap_kept (accepts : String → Objs Nat → Bool) (doc : Doc C) (hd : (doc.variables.map Prod.fst).Nodup) (reuse : List Nat)
    (s : Store C) (hs : s.existing = none) :
    s.heap <+: (fromHs3 accepts doc reuse s).1.heap ∧ (fromHs3 accepts doc reuse s).1.existing = none := by
  obtain ⟨hi, _⟩ := loadBody_store accepts doc hd reuse s
  unfold fromHs3 initialized
  rw [hs]
  exact ⟨hi.heap, rfl⟩

/-- C176: the parameters given as `reuse_params` (with different names) are used wherever their name occurs, none of the parameters that
existed is changed, and every other name gets a new parameter with what the document says. -/
theorem reused (accepts : String → Objs Nat → Bool) (doc : Doc C) (hd : (doc.variables.map Prod.fst).Nodup) (reuse : List Nat)
    (s : Store C) (hs : s.existing = none) (hu : ∀ i ∈ reuse, ∀ j ∈ reuse, nameOf s.heap i = nameOf s.heap j → i = j)
    (vs : List (String × Nat)) (os : List (String × Obj Nat)) (h : (fromHs3 accepts doc reuse s).2 = .ok (vs, os)) :
    ∃ f : String → Nat,
      vs = doc.variables.map (fun p => (p.1, f p.1)) ∧ os = doc.objects.map (fun p => (p.1, p.2.map f)) ∧
      (∀ i ∈ reuse, f (nameOf s.heap i) = i) ∧
      (∀ p ∈ doc.variables, (∀ i ∈ reuse, nameOf s.heap i ≠ p.1) →
        s.heap.length ≤ f p.1 ∧ (fromHs3 accepts doc reuse s).1.heap[f p.1]? = some p) ∧
      s.heap <+: (fromHs3 accepts doc reuse s).1.heap := by
  obtain ⟨f, h1, h2, h3, h4⟩ := load_spec accepts doc hd reuse s hs vs os h
  obtain ⟨hsp, hsp2⟩ := reuseDict_spec s.heap reuse
  refine ⟨f, h1, h2, ?_, ?_, (heap_kept accepts doc hd reuse s hs).1⟩
  · intro i hi
    obtain ⟨j, hj⟩ := Option.isSome_iff_exists.mp (hsp2 i hi)
    obtain ⟨a, b⟩ := hsp _ _ hj
    rw [h3 _ _ hj]
    exact hu j a i hi b
  · intro p hp hn
    refine h4 p.1 p.2 (dictGet_of_mem_nodup _ hd p hp) ?_
    cases hg : dictGet (reuseDict s.heap reuse) p.1 with
    | none => rfl
    | some i =>
      obtain ⟨a, b⟩ := hsp _ _ hg
      exact absurd b (hn i a)

/-- A document with two Gauss in the same mean, in a process that has a mean of its own and an unrelated parameter. -/
def exDoc : Doc Nat := ⟨[("mu", 1), ("sigma", 2), ("width", 3)],
  [("first", .make "Gauss" (.cons (.param "mu") (.cons (.param "sigma") .nil))),
    ("second", .make "Sum" (.cons (.make "Gauss" (.cons (.param "mu") (.cons (.param "width") .nil))) .nil))]⟩

def exStore : Store Nat := { heap := [("other", 7), ("mu", 9)], existing := none }

/-- The parameter given is used at both places, and `sigma` and `width` are new. -/
example : fromHs3 (fun _ _ => true) exDoc [1] exStore
    = ({ heap := [("other", 7), ("mu", 9), ("sigma", 2), ("width", 3)], existing := none },
      .ok ([("mu", 1), ("sigma", 2), ("width", 3)],
        [("first", .make "Gauss" (.cons (.param 1) (.cons (.param 2) .nil))),
          ("second", .make "Sum" (.cons (.make "Gauss" (.cons (.param 1) (.cons (.param 3) .nil))) .nil))])) := by rfl

example : (exDoc.variables.map Prod.fst).Nodup := by decide

/-- C177: whatever was loaded before, and whether or not it failed, a load is on its own: it makes new parameters for all names that are not
given, and leaves those that exist, of earlier loads too, as they are. -/
theorem loads_independent (accepts : String → Objs Nat → Bool) (s₀ : Store C) (hs : s₀.existing = none)
    (history : List (Doc C × List Nat)) (hh : ∀ l ∈ history, (l.1.variables.map Prod.fst).Nodup)
    (doc : Doc C) (hd : (doc.variables.map Prod.fst).Nodup) (reuse : List Nat)
    (vs : List (String × Nat)) (os : List (String × Obj Nat))
    (h : (fromHs3 accepts doc reuse (runLoads accepts s₀ history)).2 = .ok (vs, os)) :
    (∀ p ∈ vs, (∀ i ∈ reuse, nameOf (runLoads accepts s₀ history).heap i ≠ p.1) → (runLoads accepts s₀ history).heap.length ≤ p.2) ∧
    s₀.heap <+: (runLoads accepts s₀ history).heap ∧
    (runLoads accepts s₀ history).heap <+: (fromHs3 accepts doc reuse (runLoads accepts s₀ history)).1.heap := by
  have hist : (runLoads accepts s₀ history).existing = none ∧ s₀.heap <+: (runLoads accepts s₀ history).heap := by
    clear h
    induction history generalizing s₀ with
    | nil => exact ⟨hs, List.prefix_refl _⟩
    | cons l rest ih =>
      obtain ⟨d, r⟩ := l
      obtain ⟨a, b⟩ := heap_kept accepts d (hh (d, r) List.mem_cons_self) r s₀ hs
      obtain ⟨c, e⟩ := ih (fromHs3 accepts d r s₀).1 b (fun l hl => hh l (List.mem_cons_of_mem _ hl))
      exact ⟨c, a.trans e⟩
  refine ⟨?_, hist.2, (heap_kept accepts doc hd reuse _ hist.1).1⟩
  obtain ⟨f, h1, h2, h3, h4⟩ := load_spec accepts doc hd reuse _ hist.1 vs os h
  obtain ⟨hsp, _⟩ := reuseDict_spec (runLoads accepts s₀ history).heap reuse
  intro p hp hn
  rw [h1] at hp
  obtain ⟨q, hq, rfl⟩ := List.mem_map.mp hp
  refine (h4 q.1 q.2 (dictGet_of_mem_nodup _ hd q hq) ?_).1
  cases hg : dictGet (reuseDict (runLoads accepts s₀ history).heap reuse) q.1 with
  | none => rfl
  | some i =>
    obtain ⟨a, b⟩ := hsp _ _ hg
    exact absurd b (hn i a)

/-- A load that fails (the sum is refused) after it made its parameters, and then the same document: everything is new. -/
example : (runLoads (fun t _ => t != "Sum") exStore [(exDoc, [1])]).heap = [("other", 7), ("mu", 9), ("sigma", 2), ("width", 3)] ∧
    ((fromHs3 (fun _ _ => true) exDoc [] (runLoads (fun t _ => t != "Sum") exStore [(exDoc, [1])])).2.map Prod.fst)
      = .ok [("mu", 4), ("sigma", 5), ("width", 6)] := ⟨rfl, rfl⟩

/-! ## C178: saving and loading -/

theorem addVariable_spec (heap : List (String × C)) (vars : List (String × C)) (i : Nat) (hv : (vars.map Prod.fst).Nodup) :
    ((addVariable heap vars i).map Prod.fst).Nodup ∧ vars <+: addVariable heap vars i ∧
    (∀ p ∈ addVariable heap vars i, p ∈ vars ∨ heap[i]? = some p) ∧
    (∀ n c, heap[i]? = some (n, c) → (dictGet (addVariable heap vars i) n).isSome) := by
  unfold addVariable
  cases hi : heap[i]? with
  | none => simp [hv]
  | some p =>
    obtain ⟨n, c⟩ := p
    dsimp only
    split
    · rename_i h
      refine ⟨hv, List.prefix_refl _, fun p hp => .inl hp, fun n' c' e => ?_⟩
      cases e
      exact h
    · rename_i h
      have hnot : n ∉ vars.map Prod.fst := by
        intro hm
        obtain ⟨p, hp, rfl⟩ := List.mem_map.mp hm
        rw [dictGet_of_mem_nodup vars hv p hp] at h
        exact h rfl
      refine ⟨?_, List.prefix_append _ _, ?_, ?_⟩
      · rw [List.map_append, List.nodup_append]
        refine ⟨hv, by simp, ?_⟩
        intro a ha b hb e
        simp only [List.map_cons, List.map_nil, List.mem_singleton] at hb
        subst hb
        subst e
        exact hnot ha
      · intro p hp
        rcases List.mem_append.mp hp with hp | hp
        · exact .inl hp
        · simp only [List.mem_singleton] at hp
          exact .inr (by rw [hp])
      · intro n' c' e
        cases e
        unfold dictGet
        rw [List.find?_append]
        have : List.find? (fun p => decide (p.1 = n)) [(n, c)] = some (n, c) := by simp
        rw [this]
        cases List.find? (fun p => decide (p.1 = n)) vars <;> rfl

theorem dictGet_prefix (d d' : List (String × C)) (h : d <+: d') (n : String) (hn : (dictGet d n).isSome) :
    dictGet d' n = dictGet d n := by
  obtain ⟨t, rfl⟩ := h
  unfold dictGet at hn ⊢
  rw [List.find?_append]
  cases hf : List.find? (fun p => decide (p.1 = n)) d with
  | none => rw [hf] at hn; cases hn
  | some p => rfl

theorem variables_spec (heap : List (String × C)) (ids : List Nat) (vars : List (String × C)) (hv : (vars.map Prod.fst).Nodup) :
    ((ids.foldl (addVariable heap) vars).map Prod.fst).Nodup ∧ vars <+: ids.foldl (addVariable heap) vars ∧
    (∀ p ∈ ids.foldl (addVariable heap) vars, p ∈ vars ∨ ∃ i ∈ ids, heap[i]? = some p) ∧
    (∀ i ∈ ids, ∀ n c, heap[i]? = some (n, c) → (dictGet (ids.foldl (addVariable heap) vars) n).isSome) := by
  induction ids generalizing vars with
  | nil => simp [hv]
  | cons i rest ih =>
    obtain ⟨a1, a2, a3, a4⟩ := addVariable_spec heap vars i hv
    obtain ⟨b1, b2, b3, b4⟩ := ih (addVariable heap vars i) a1
    rw [List.foldl_cons]
    refine ⟨b1, a2.trans b2, ?_, ?_⟩
    · intro p hp
      rcases b3 p hp with h | ⟨j, hj, h⟩
      · rcases a3 p h with h | h
        · exact .inl h
        · exact .inr ⟨i, List.mem_cons_self, h⟩
      · exact .inr ⟨j, List.mem_cons_of_mem _ hj, h⟩
    · intro j hj n c h
      rcases List.mem_cons.mp hj with rfl | hj
      · rw [dictGet_prefix _ _ b2 n (a4 n c h)]
        exact a4 n c h
      · exact b4 j hj n c h

mutual
theorem loadObj_ok (h0 : List (String × C)) (r : List (String × Nat)) (vars : List (String × C)) (accepts : String → Objs Nat → Bool)
    (ha : ∀ t as, accepts t as = true) (s : Store C) (hs : Inv h0 r vars s) (o : Obj String)
    (ho : ∀ n ∈ o.params, (dictGet vars n).isSome) : ∃ s' o', loadObj vars accepts s o = (s', .ok o') ∧ Inv h0 r vars s' := by
  cases o with
  | param n =>
    obtain ⟨c, hc⟩ := Option.isSome_iff_exists.mp (ho n (by simp [Obj.params]))
    obtain ⟨s', i, he, hi, -, -⟩ := getParam_spec h0 r vars s hs n c hc
    exact ⟨s', .param i, by simp [loadObj, hc, he], hi⟩
  | make t as =>
    obtain ⟨s', as', he, hi⟩ := loadObjs_ok h0 r vars accepts ha s hs as (by simpa [Obj.params] using ho)
    exact ⟨s', .make t as', by simp [loadObj, he, ha], hi⟩
theorem loadObjs_ok (h0 : List (String × C)) (r : List (String × Nat)) (vars : List (String × C)) (accepts : String → Objs Nat → Bool)
    (ha : ∀ t as, accepts t as = true) (s : Store C) (hs : Inv h0 r vars s) (os : Objs String)
    (ho : ∀ n ∈ os.params, (dictGet vars n).isSome) : ∃ s' os', loadObjs vars accepts s os = (s', .ok os') ∧ Inv h0 r vars s' := by
  cases os with
  | nil => exact ⟨s, .nil, rfl, hs⟩
  | cons o os =>
    simp only [Objs.params, List.mem_append] at ho
    obtain ⟨s', o', he, hi⟩ := loadObj_ok h0 r vars accepts ha s hs o (fun n hn => ho n (.inl hn))
    obtain ⟨s'', os', he', hi'⟩ := loadObjs_ok h0 r vars accepts ha s' hi os (fun n hn => ho n (.inr hn))
    exact ⟨s'', .cons o' os', by simp [loadObjs, he, he'], hi'⟩
end

theorem loadObjects_ok (h0 : List (String × C)) (r : List (String × Nat)) (vars : List (String × C)) (accepts : String → Objs Nat → Bool)
    (ha : ∀ t as, accepts t as = true) (s : Store C) (hs : Inv h0 r vars s) (os : List (String × Obj String))
    (ho : ∀ o ∈ os, ∀ n ∈ o.2.params, (dictGet vars n).isSome) : ∃ s' os', loadObjects vars accepts s os = (s', .ok os') := by
  induction os generalizing s with
  | nil => exact ⟨s, [], rfl⟩
  | cons p os ih =>
    obtain ⟨k, o⟩ := p
    obtain ⟨s', o', he, hi⟩ := loadObj_ok h0 r vars accepts ha s hs o (ho (k, o) List.mem_cons_self)
    obtain ⟨s'', os', he'⟩ := ih s' hi (fun o ho' => ho o (List.mem_cons_of_mem _ ho'))
    exact ⟨s'', (k, o') :: os', by simp [loadObjects, he, he']⟩

/-- C178, what holds: objects that are saved and loaded come back with parameters `g i` in place of the parameters `i`: new ones with the
name and content of the old, shared exactly as those were - provided that no two of the parameters have the same name. Missing from the full
claim: the cases of `same_name_violated`. -/
theorem round_trip_partial (accepts : String → Objs Nat → Bool) (ha : ∀ t as, accepts t as = true) (s : Store C) (hs : s.existing = none)
    (objs : List (String × Obj Nat)) (hv : ∀ o ∈ objs, ∀ i ∈ o.2.params, i < s.heap.length)
    (hn : ∀ o ∈ objs, ∀ i ∈ o.2.params, ∀ o' ∈ objs, ∀ j ∈ o'.2.params, nameOf s.heap i = nameOf s.heap j → i = j) :
    ∃ vs g, (fromHs3 accepts (toHs3 s.heap objs) [] s).2 = .ok (vs, objs.map fun o => (o.1, o.2.map g)) ∧
      (∀ o ∈ objs, ∀ i ∈ o.2.params, s.heap.length ≤ g i ∧
        (fromHs3 accepts (toHs3 s.heap objs) [] s).1.heap[g i]? = s.heap[i]?) ∧
      (∀ o ∈ objs, ∀ i ∈ o.2.params, ∀ o' ∈ objs, ∀ j ∈ o'.2.params, g i = g j → i = j) := by
  obtain ⟨n1, -, n3, n4⟩ := variables_spec s.heap (objs.flatMap fun o => o.2.params) [] (by simp)
  have hd : ((toHs3 s.heap objs).variables.map Prod.fst).Nodup := n1
  have mem : ∀ o ∈ objs, ∀ i ∈ o.2.params, i ∈ objs.flatMap fun o => o.2.params :=
    fun o ho i hi => List.mem_flatMap.mpr ⟨o, ho, hi⟩
  have var : ∀ o ∈ objs, ∀ i ∈ o.2.params, dictGet (toHs3 s.heap objs).variables (nameOf s.heap i) = (s.heap[i]?).map Prod.snd := by
    intro o ho i hi
    have hp : s.heap[i]? = some (s.heap[i]'(hv o ho i hi)) := List.getElem?_eq_getElem (hv o ho i hi)
    have hname : nameOf s.heap i = (s.heap[i]'(hv o ho i hi)).1 := by simp [nameOf, hp]
    obtain ⟨c, hc⟩ := Option.isSome_iff_exists.mp (n4 i (mem o ho i hi) _ _ hp)
    have hm := mem_of_dictGet _ _ _ hc
    rcases n3 _ hm with h | ⟨j, hj, h⟩
    · cases h
    · obtain ⟨o', ho', hj'⟩ := List.mem_flatMap.mp hj
      have : i = j := hn o ho i hi o' ho' j hj' (by rw [hname]; simp [nameOf, h])
      subst this
      rw [h] at hp ⊢
      rw [hname]
      exact hc
  have hok : ∃ vs os, (fromHs3 accepts (toHs3 s.heap objs) [] s).2 = .ok (vs, os) := by
    obtain ⟨s', he, hi, -, -⟩ := loadVariables_spec s.heap (reuseDict s.heap []) (toHs3 s.heap objs).variables _
      (inv_start s [] (toHs3 s.heap objs).variables) (toHs3 s.heap objs).variables (fun p hp => dictGet_of_mem_nodup _ hd p hp)
    obtain ⟨s'', os', he'⟩ := loadObjects_ok s.heap (reuseDict s.heap []) (toHs3 s.heap objs).variables accepts ha s' hi
      (toHs3 s.heap objs).objects (by
        intro q hq n hn'
        obtain ⟨o, ho, rfl⟩ := List.mem_map.mp hq
        dsimp only at hn'
        rw [Obj.params_map] at hn'
        obtain ⟨i, hi, rfl⟩ := List.mem_map.mp hn'
        rw [var o ho i hi, List.getElem?_eq_getElem (hv o ho i hi)]
        rfl)
    refine ⟨(toHs3 s.heap objs).variables.map (fun p => (p.1, pick s' p.1)), os', ?_⟩
    unfold fromHs3 initialized
    rw [hs]
    dsimp only
    unfold loadBody
    rw [he]
    dsimp only
    rw [he']
  obtain ⟨vs, os, h⟩ := hok
  obtain ⟨f, h1, h2, -, h4⟩ := load_spec accepts _ hd [] s hs vs os h
  have new : ∀ o ∈ objs, ∀ i ∈ o.2.params, s.heap.length ≤ f (nameOf s.heap i) ∧
      (fromHs3 accepts (toHs3 s.heap objs) [] s).1.heap[f (nameOf s.heap i)]? = s.heap[i]? := by
    intro o ho i hi
    have hp : s.heap[i]? = some (s.heap[i]'(hv o ho i hi)) := List.getElem?_eq_getElem (hv o ho i hi)
    have hname : nameOf s.heap i = (s.heap[i]'(hv o ho i hi)).1 := by simp [nameOf, hp]
    have hvv := var o ho i hi
    rw [hp, Option.map_some] at hvv
    obtain ⟨a, b⟩ := h4 _ _ hvv rfl
    refine ⟨a, ?_⟩
    rw [b, hp, hname]
  refine ⟨vs, fun i => f (nameOf s.heap i), ?_, new, ?_⟩
  · rw [h, h2]
    simp only [toHs3, List.map_map, Function.comp_def, Obj.map_map]
  · intro o ho i hi o' ho' j hj e
    have hi' := (new o ho i hi).2
    have hj' := (new o' ho' j hj).2
    dsimp only at e
    rw [e, hj'] at hi'
    exact hn o ho i hi o' ho' j hj (by simp only [nameOf]; rw [hi'])

/-- Two Gauss that share the mean: they come back sharing a new mean. -/
example : (fromHs3 (fun _ _ => true) (toHs3 [("mu", 1), ("sigma", 2), ("width", 3)]
      [("first", .make "Gauss" (.cons (.param 0) (.cons (.param 1) .nil))), ("second", .make "Gauss" (.cons (.param 0) (.cons (.param 2) .nil)))])
      [] { heap := [("mu", 1), ("sigma", 2), ("width", 3)], existing := none }).2
    = .ok ([("mu", 3), ("sigma", 4), ("width", 5)],
      [("first", .make "Gauss" (.cons (.param 3) (.cons (.param 4) .nil))), ("second", .make "Gauss" (.cons (.param 3) (.cons (.param 5) .nil)))]) := by
  rfl

/-- C178 fails for two PDFs that have parameters of their own of the same name, such as a mean at 1 and a mean at 5: they come back
sharing one parameter, at the first value. -/
theorem same_name_violated :
    (fromHs3 (fun _ _ => true) (toHs3 [("mu", 1), ("mu", 5)] [("first", .make "Poisson" (.cons (.param 0) .nil)),
      ("second", .make "Poisson" (.cons (.param 1) .nil))]) [] { heap := [("mu", 1), ("mu", 5)], existing := none })
    = ({ heap := [("mu", 1), ("mu", 5), ("mu", 1)], existing := none },
      .ok ([("mu", 2)], [("first", .make "Poisson" (.cons (.param 2) .nil)), ("second", .make "Poisson" (.cons (.param 2) .nil))])) := by
  rfl

end Zfit.Hs3
