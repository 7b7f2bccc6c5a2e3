import Verif.Common.Py
import Verif.Common.Except
import Mathlib.Logic.Relation
import Mathlib.Data.Nat.Notation
import Mathlib.Tactic.ByContra

/-!
# Model and properties of cache invalidation

/repo/zfit/util/cache.py, `GraphCachable`. C45 `reset_reaches_dependents`, `register_spec`; `reset_cycle_fails`

Objects are numbers. Weak references that have died are left out (an object that is gone is in no list).
-/

namespace Zfit.Run

open Zfit

/-- The cachers registered with each object, in order of registration, and the cache of each object (its keys). -/
structure Objs where
  cachers : ℕ → List ℕ
  cache : ℕ → List ℕ

/-- `register_cacher` (cache.py:120-131): `cacher` depends on `dep`. -/
def Objs.register (o : Objs) (dep cacher : ℕ) : Objs :=
  { o with cachers := fun i => if i = dep then (if cacher ∈ o.cachers dep then o.cachers dep else o.cachers dep ++ [cacher]) else o.cachers i }

/-- `add_cache_deps` (cache.py:133-151). -/
def Objs.addDeps (o : Objs) (self : ℕ) (deps : List ℕ) : Objs := deps.foldl (fun o d => o.register d self) o

/-- `_clean_cache` (cache.py:162-163). -/
def clean (cache : ℕ → List ℕ) (i : ℕ) : ℕ → List ℕ := fun j => if j = i then [] else cache j

/-- `reset_cache_self` with `_inform_cachers` and `reset_cache` (cache.py:153-168). `fuel` is the depth of the call stack that is left;
Python raises `RecursionError` when it is used up. -/
def reset (cachers : ℕ → List ℕ) : ℕ → ℕ → (ℕ → List ℕ) → Except Err (ℕ → List ℕ)
  | 0, _, _ => .error .runtimeError
  | fuel + 1, i, cache => (cachers i).foldlM (fun c j => reset cachers fuel j c) (clean cache i)

/-! ## C45 -/

/-- `j` depends on `i`, directly or through others, or is `i`. -/
abbrev Dependent (cachers : ℕ → List ℕ) (i j : ℕ) : Prop := Relation.ReflTransGen (fun a b => b ∈ cachers a) i j

theorem foldl_reset (cachers : ℕ → List ℕ) (fuel : ℕ) (l : List ℕ)
    (h : ∀ j ∈ l, ∀ c, ∃ c', reset cachers fuel j c = .ok c' ∧ ∀ k, (Dependent cachers j k → c' k = []) ∧ (¬ Dependent cachers j k → c' k = c k))
    (c : ℕ → List ℕ) : ∃ c', l.foldlM (fun c j => reset cachers fuel j c) c = .ok c'
      ∧ ∀ k, ((∃ j ∈ l, Dependent cachers j k) → c' k = []) ∧ ((∀ j ∈ l, ¬ Dependent cachers j k) → c' k = c k) := by
  induction l generalizing c with
  | nil => exact ⟨c, rfl, fun k => ⟨fun ⟨_, hj, _⟩ => by simp at hj, fun _ => rfl⟩⟩
  | cons j js ih =>
    obtain ⟨c1, h1, h1'⟩ := h j List.mem_cons_self c
    obtain ⟨c2, h2, h2'⟩ := ih (fun x hx => h x (List.mem_cons_of_mem _ hx)) c1
    refine ⟨c2, by rw [List.foldlM_cons, h1]; exact h2, fun k => ⟨?_, ?_⟩⟩
    · rintro ⟨x, hx, hd⟩
      by_cases hjs : ∃ y ∈ js, Dependent cachers y k
      · exact (h2' k).1 hjs
      · have hne : ∀ y ∈ js, ¬ Dependent cachers y k := fun y hy hyd => hjs ⟨y, hy, hyd⟩
        rw [(h2' k).2 hne]
        rcases List.mem_cons.1 hx with rfl | hx
        · exact (h1' k).1 hd
        · exact absurd hd (hne x hx)
    · intro hn
      rw [(h2' k).2 (fun y hy => hn y (List.mem_cons_of_mem _ hy)), (h1' k).2 (hn j List.mem_cons_self)]

/-- In every acyclic graph of dependencies (witnessed by a rank), a change of `i` clears the caches of `i` and of everything that depends on
it, and of nothing else. -/
theorem reset_reaches_dependents (o : Objs) (rank : ℕ → ℕ) (hr : ∀ i, ∀ j ∈ o.cachers i, rank j < rank i) (i fuel : ℕ)
    (hf : rank i < fuel) :
    ∃ c, reset o.cachers fuel i o.cache = .ok c ∧
      ∀ k, (Dependent o.cachers i k → c k = []) ∧ (¬ Dependent o.cachers i k → c k = o.cache k) := by
  have key : ∀ fuel i c, rank i < fuel → ∃ c', reset o.cachers fuel i c = .ok c' ∧
      ∀ k, (Dependent o.cachers i k → c' k = []) ∧ (¬ Dependent o.cachers i k → c' k = c k) := by
    intro fuel
    induction fuel with
    | zero => intro i c h; exact absurd h (Nat.not_lt_zero _)
    | succ n ih =>
      intro i c h
      obtain ⟨c', h1, h2⟩ := foldl_reset o.cachers n (o.cachers i) (fun j hj c => ih j c (by have := hr i j hj; omega)) (clean c i)
      refine ⟨c', h1, fun k => ⟨fun hd => ?_, fun hn => ?_⟩⟩
      · by_cases hex : ∃ j ∈ o.cachers i, Dependent o.cachers j k
        · exact (h2 k).1 hex
        · rw [(h2 k).2 (fun j hj hd' => hex ⟨j, hj, hd'⟩)]
          rcases Relation.ReflTransGen.cases_head hd with rfl | ⟨j, hj, hjk⟩
          · simp [clean]
          · exact absurd ⟨j, hj, hjk⟩ hex
      · rw [(h2 k).2 (fun j hj hd => hn (Relation.ReflTransGen.head hj hd))]
        have : k ≠ i := fun hk => hn (hk ▸ Relation.ReflTransGen.refl)
        simp [clean, this]
  exact key fuel i o.cache hf

/-- Registration: afterwards `self` is, once, among the cachers of every one of its dependencies; nothing else changes. -/
theorem register_spec (o : Objs) (self : ℕ) (deps : List ℕ) (hn : ∀ i, (o.cachers i).Nodup) (i : ℕ) :
    ((o.addDeps self deps).cachers i).Nodup
      ∧ (∀ k, k ∈ (o.addDeps self deps).cachers i ↔ k ∈ o.cachers i ∨ (k = self ∧ i ∈ deps))
      ∧ (o.addDeps self deps).cache = o.cache := by
  unfold Objs.addDeps
  induction deps generalizing o with
  | nil => exact ⟨hn i, by simp, rfl⟩
  | cons d ds ih =>
    have hn' : ∀ i, ((o.register d self).cachers i).Nodup := by
      intro i
      simp only [Objs.register]
      split
      · split
        · exact hn d
        · rename_i h
          exact List.nodup_append.2 ⟨hn d, by simp, by
            intro a ha b hb
            rw [List.mem_singleton.1 hb]
            rintro rfl
            exact h ha⟩
      · exact hn i
    obtain ⟨h1, h2, h3⟩ := ih (o.register d self) hn'
    refine ⟨h1, fun k => ?_, h3⟩
    rw [List.foldl_cons, h2 k]
    have hreg : k ∈ (o.register d self).cachers i ↔ k ∈ o.cachers i ∨ (k = self ∧ i = d) := by
      simp only [Objs.register]
      by_cases hid : i = d
      · subst hid
        rw [if_pos rfl]
        by_cases hs : self ∈ o.cachers i
        · rw [if_pos hs]
          constructor
          · exact Or.inl
          · rintro (h | ⟨rfl, -⟩)
            · exact h
            · exact hs
        · rw [if_neg hs]; simp
      · rw [if_neg hid]; simp [hid]
    rw [hreg, List.mem_cons]
    constructor
    · rintro ((h | ⟨h, h'⟩) | ⟨h, h'⟩)
      · exact .inl h
      · exact .inr ⟨h, .inl h'⟩
      · exact .inr ⟨h, .inr h'⟩
    · rintro (h | ⟨h, h' | h'⟩)
      · exact .inl (.inl h)
      · exact .inl (.inr ⟨h, h'⟩)
      · exact .inr ⟨h, h'⟩

theorem foldlM_ok {α β : Type} (f : α → β → Except Err α) (l : List β) (a r : α) (h : l.foldlM f a = .ok r) :
    ∀ b ∈ l, ∃ x y, f x b = .ok y := by
  induction l generalizing a with
  | nil => simp
  | cons b bs ih =>
    rw [List.foldlM_cons] at h
    obtain ⟨y, hy, h⟩ := bind_eq_ok.1 h
    intro b' hb'
    rcases List.mem_cons.1 hb' with rfl | hb'
    · exact ⟨a, y, hy⟩
    · exact ih y h b' hb'

/-- Cyclic dependencies: whatever the size of the stack, an object that depends on itself cannot be changed without
running out of it. -/
theorem reset_cycle_fails (cachers : ℕ → List ℕ) (i : ℕ) (hc : Relation.TransGen (fun a b => b ∈ cachers a) i i) (fuel : ℕ)
    (cache : ℕ → List ℕ) : ∀ c, reset cachers fuel i cache ≠ .ok c := by
  have down : ∀ {i j : ℕ}, Relation.TransGen (fun a b => b ∈ cachers a) i j → ∀ fuel c c', reset cachers fuel i c = .ok c' →
      ∃ n, n < fuel ∧ ∃ x y, reset cachers n j x = .ok y := by
    intro i j hij
    induction hij with
    | single h =>
      intro fuel c c' hr
      cases fuel with
      | zero => cases hr
      | succ n => exact ⟨n, Nat.lt_succ_self n, foldlM_ok _ _ _ _ hr _ h⟩
    | tail _ h ih =>
      intro fuel c c' hr
      obtain ⟨n, hn, x, y, hxy⟩ := ih fuel c c' hr
      cases n with
      | zero => cases hxy
      | succ m => exact ⟨m, by omega, foldlM_ok _ _ _ _ hxy _ h⟩
  intro c hr
  have none : ∀ fuel, ∀ c c', reset cachers fuel i c ≠ .ok c' := by
    intro fuel
    induction fuel using Nat.strongRecOn with
    | _ fuel ih =>
      intro c c' h
      obtain ⟨n, hn, x, y, hxy⟩ := down hc fuel c c' h
      exact ih n hn x y hxy
  exact none fuel cache c hr

/-- A parameter (0) of two pdfs (1, 2) that are both in a loss (3), and an unrelated object (4). -/
def exObjs : Objs :=
  (((⟨fun _ => [], fun i => [i]⟩ : Objs).addDeps 1 [0]).addDeps 2 [0]).addDeps 3 [1, 2]

example : (reset exObjs.cachers 10 0 exObjs.cache).map (fun c => (List.range 5).map c) = .ok [[], [], [], [], [4]] := by decide

example : ∀ i, ∀ j ∈ exObjs.cachers i, (10 - j) < (10 - i) := by
  intro i j hj
  by_cases h0 : i = 0
  · subst h0; simp [exObjs, Objs.addDeps, Objs.register] at hj; omega
  · by_cases h1 : i = 1
    · subst h1; simp [exObjs, Objs.addDeps, Objs.register] at hj; omega
    · by_cases h2 : i = 2
      · subst h2; simp [exObjs, Objs.addDeps, Objs.register] at hj; omega
      · simp [exObjs, Objs.addDeps, Objs.register, h0, h1, h2] at hj

end Zfit.Run
