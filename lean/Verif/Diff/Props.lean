import Verif.Diff.Model
import Verif.Param.Lemmas
import Mathlib.Tactic.Ring
import Mathlib.Tactic.FieldSimp
import Mathlib.Tactic.Linarith

/-! C92: numerical derivatives; C93: the derivatives of a loss. -/

namespace Zfit.Diff

open Zfit Zfit.Par

/-! ## Assigning repeatedly -/

theorem assignAll_cases (s : Store) (b : List (Nat × Rat)) (j : Nat) :
    (j ∉ b.map (·.1) ∧ ∀ s' : Store, assignAll s' b j = s' j) ∨ ∃ v, (∃ iv ∈ b, iv = (j, v)) ∧ ∀ s' : Store, assignAll s' b j = (s' j).assign v := by
  induction b generalizing s with
  | nil => exact .inl ⟨by simp, fun _ => rfl⟩
  | cons iv b ih =>
    obtain ⟨i, v⟩ := iv
    rcases ih s with ⟨h1, h2⟩ | ⟨v', ⟨iv', hm, he⟩, h2⟩
    · by_cases hij : j = i
      · subst hij
        refine .inr ⟨v, ⟨(j, v), by simp, rfl⟩, fun s' => ?_⟩
        rw [assignAll, h2]
        simp [Store.put]
      · refine .inl ⟨by simp [hij]; simpa using h1, fun s' => ?_⟩
        rw [assignAll, h2]
        simp [Store.put, hij]
    · refine .inr ⟨v', ⟨iv', List.mem_cons_of_mem _ hm, he⟩, fun s' => ?_⟩
      rw [assignAll, h2]
      unfold Store.put
      split
      · next hji => subst hji; rfl
      · rfl

/-- A complete assignment overwrites an earlier one of the same parameters. -/
theorem assignAll_overwrites (s : Store) (b b' : List (Nat × Rat)) (h : b.map (·.1) = b'.map (·.1)) : assignAll (assignAll s b) b' = assignAll s b' := by
  funext j
  rcases assignAll_cases s b' j with ⟨h1, h2⟩ | ⟨v, -, h2⟩
  · rw [h2, h2]
    exact assignAll_untouched s b j (by rw [h]; exact h1)
  · rw [h2, h2]
    rcases assignAll_cases s b j with ⟨-, h3⟩ | ⟨v', -, h3⟩
    · rw [h3]
    · rw [h3]
      rfl

/-- The parameters that can be assigned. -/
def Assignable (ps : List Ref) : Prop := ∀ p ∈ ps, p.isParam = true ∧ p.independent = true

theorem assignValues_ok (s : Store) (ps : List Ref) (x : List Rat) (hp : Assignable ps) (hx : x.length = ps.length) :
    assignValues s (some ps) false (.list x) = (assignAll s ((ps.zip x).map fun e => (e.1.id, e.2)), none) := by
  have h1 : (ps.zip x).all (fun e => e.1.isParam) = true := by
    rw [List.all_eq_true]
    intro e he
    exact (hp e.1 (List.of_mem_zip he).1).1
  have h2 : (ps.zip x).all (fun e => e.1.independent) = true := by
    rw [List.all_eq_true]
    intro e he
    exact (hp e.1 (List.of_mem_zip he).1).2
  unfold assignValues checkConvert
  cases ps with
  | nil => simp
  | cons p ps =>
    simp only [pairUp, pairList, hx, if_true, bind, Except.bind, finalCheck, h1, h2]

theorem assignValues_bad (s : Store) (ps : List Ref) (x : List Rat) :
    (∃ e, assignValues s (some ps) false (.list x) = (s, some e)) ∨
      (ps = [] ∧ assignValues s (some ps) false (.list x) = (s, none)) ∨ (Assignable ps ∧ x.length = ps.length) := by
  cases ps with
  | nil => exact .inr (.inl ⟨rfl, rfl⟩)
  | cons p ps =>
    by_cases hx : x.length = (p :: ps).length
    · by_cases hp : Assignable (p :: ps)
      · exact .inr (.inr ⟨hp, hx⟩)
      · left
        unfold assignValues checkConvert
        simp only [pairUp, pairList, hx, if_true, bind, Except.bind, finalCheck]
        by_cases h1 : ((p :: ps).zip x).all (fun e => e.1.isParam) = true
        · rw [if_pos h1]
          by_cases h2 : ((p :: ps).zip x).all (fun e => e.1.independent) = true
          · exfalso
            apply hp
            intro q hq
            have : q ∈ ((p :: ps).zip x).map (·.1) := by
              rw [List.map_fst_zip (by omega)]
              exact hq
            obtain ⟨e, he, rfl⟩ := List.mem_map.1 this
            exact ⟨List.all_eq_true.1 h1 e he, List.all_eq_true.1 h2 e he⟩
          · rw [if_neg h2]
            exact ⟨_, rfl⟩
        · rw [if_neg h1]
          exact ⟨_, rfl⟩
    · left
      unfold assignValues checkConvert
      simp only [pairUp, pairList, hx, if_false, bind, Except.bind]
      exact ⟨_, rfl⟩

/-- The parameters `ps` at the values `x`, all others as in `s`. -/
def at_ (s : Store) (ps : List Ref) (x : List Rat) : Store := assignAll s ((ps.zip x).map fun e => (e.1.id, e.2))

theorem at_at (s : Store) (ps : List Ref) (x y : List Rat) (hx : x.length = ps.length) (hy : y.length = ps.length) :
    at_ (at_ s ps x) ps y = at_ s ps y := by
  apply assignAll_overwrites
  simp only [List.map_map, Function.comp_def]
  have : ∀ z : List Rat, z.length = ps.length → (ps.zip z).map (fun e => e.1.id) = ps.map (·.id) := fun z hz => by
    rw [← List.map_fst_zip (l₁ := ps) (l₂ := z) (by omega), List.map_map]
    rw [List.map_fst_zip (by omega)]
    rfl
  rw [this x hx, this y hy]

/-! ## What the library computes -/

/-- What the library does with a function of the point alone. -/
def ideal {ρ : Type} (f : List Rat → Except Err Rat) : Strategy ρ → Except Err ρ
  | .done r => .ok r
  | .ask x k =>
    match f x with
    | .ok v => ideal f (k v)
    | .error e => .error e

/-- All points asked for have this length. -/
inductive Asks {ρ : Type} (n : Nat) : Strategy ρ → Prop
  | done (r : ρ) : Asks n (.done r)
  | ask (x : List Rat) (k : Rat → Strategy ρ) (hx : x.length = n) (hk : ∀ v, Asks n (k v)) : Asks n (.ask x k)

theorem drive_spec {ρ : Type} (ps : List Ref) (func : Func) (hp : Assignable ps) (t : Strategy ρ) (ht : Asks ps.length t) (s s0 : Store)
    (hs : s = s0 ∨ ∃ x, x.length = ps.length ∧ s = at_ s0 ps x) :
    (drive ps func t s).2 = ideal (fun x => func (at_ s0 ps x)) t ∧
      ((drive ps func t s).1 = s0 ∨ ∃ x, x.length = ps.length ∧ (drive ps func t s).1 = at_ s0 ps x) := by
  induction ht generalizing s with
  | done r => exact ⟨rfl, hs⟩
  | ask x k hx hk ih =>
    have ha : at_ s ps x = at_ s0 ps x := by
      rcases hs with rfl | ⟨y, hy, rfl⟩
      · rfl
      · exact at_at s0 ps y x hy hx
    rw [drive, assignValues_ok s ps x hp hx]
    change (match func (at_ s ps x) with
      | .error e => (at_ s ps x, Except.error e)
      | .ok v => drive ps func (k v) (at_ s ps x)).2 = _ ∧ ((match func (at_ s ps x) with
      | .error e => (at_ s ps x, Except.error e)
      | .ok v => drive ps func (k v) (at_ s ps x)).1 = s0 ∨ ∃ y, y.length = ps.length ∧ (match func (at_ s ps x) with
      | .error e => (at_ s ps x, Except.error e)
      | .ok v => drive ps func (k v) (at_ s ps x)).1 = at_ s0 ps y)
    rw [ha, ideal]
    cases hf : func (at_ s0 ps x) with
    | error e => exact ⟨rfl, .inr ⟨x, hx, rfl⟩⟩
    | ok v => exact ih v _ (.inr ⟨x, hx, rfl⟩)

theorem mem_zip_self {α : Type} (l : List α) (q : α × α) (h : q ∈ l.zip l) : q.1 = q.2 := by
  induction l with
  | nil => simp at h
  | cons a l ih =>
    simp only [List.zip_cons_cons, List.mem_cons] at h
    rcases h with rfl | h
    · rfl
    · exact ih h

/-- Two stores show the same: same values and same limits. -/
def Same (s s' : Store) : Prop := ∀ i, (s' i).value = (s i).value ∧ (s' i).lower = (s i).lower ∧ (s' i).upper = (s i).upper

theorem value_assign_value (p : Param) : (p.assign p.value).value = p.value := by
  unfold Param.value Param.assign Param.hasLimits clip
  rcases p with ⟨l, u, v⟩
  cases l <;> cases u <;> simp
  rename_i l u
  rcases le_total v u with h1 | h1 <;> rcases le_total l u with h2 | h2 <;> rcases le_total l v with h3 | h3 <;>
    simp [h1, h2, h3, min_def, max_def] <;> (try split_ifs) <;> (try linarith)

theorem at_vals_same (s : Store) (ps : List Ref) (x : List Rat) (hx : x.length = ps.length) : Same s (at_ (at_ s ps x) ps (paramVals ps s)) := by
  have hl : (paramVals ps s).length = ps.length := by simp [paramVals]
  rw [at_at s ps x _ hx hl]
  intro i
  rcases assignAll_cases s ((ps.zip (paramVals ps s)).map fun e => (e.1.id, e.2)) i with ⟨-, h⟩ | ⟨v, ⟨iv, hm, he⟩, h⟩
  · unfold at_
    rw [h]
    exact ⟨rfl, rfl, rfl⟩
  · unfold at_
    rw [h]
    obtain ⟨e, hez, hee⟩ := List.mem_map.1 hm
    rw [he] at hee
    simp only [Prod.mk.injEq] at hee
    have hv : v = (s i).value := by
      unfold paramVals at hez
      rw [← hee.1, ← hee.2]
      rw [List.zip_map_right] at hez
      obtain ⟨q, hq, rfl⟩ := List.mem_map.1 hez
      have := mem_zip_self ps q hq
      simp [this]
    rw [hv]
    exact ⟨value_assign_value _, rfl, rfl⟩

theorem at_vals_self (s : Store) (ps : List Ref) : Same s (at_ s ps (paramVals ps s)) := by
  have hl : (paramVals ps s).length = ps.length := by simp [paramVals]
  have := at_vals_same s ps (paramVals ps s) hl
  rwa [at_at s ps _ _ hl hl] at this

/-- C92. For every library and every function: the result is what the library makes of the function of the point alone, evaluated with
the other parameters at their values. In particular it does not depend on what was evaluated before. -/
theorem numerical_result {ρ : Type} (ps : List Ref) (func : Func) (lib : List Rat → Strategy ρ) (s : Store) (hp : Assignable ps)
    (hl : Asks ps.length (lib (paramVals ps s))) : (numerical ps func lib s).2 = ideal (fun x => func (at_ s ps x)) (lib (paramVals ps s)) := by
  obtain ⟨h1, h2⟩ := drive_spec ps func hp _ hl s s (.inl rfl)
  unfold numerical
  simp only
  obtain ⟨⟨d, r⟩, hd⟩ : ∃ d, d = drive ps func (lib (paramVals ps s)) s := ⟨_, rfl⟩
  rw [← hd] at h1 h2 ⊢
  cases r with
  | error e => exact h1
  | ok r =>
    simp only
    rw [assignValues_ok d ps _ hp (by simp [paramVals])]
    exact h1

/-- C92. After a numerical derivative that was computed every parameter has the value it had before, and the same limits. -/
theorem numerical_restores {ρ : Type} (ps : List Ref) (func : Func) (lib : List Rat → Strategy ρ) (s : Store) (r : ρ)
    (h : (numerical ps func lib s).2 = .ok r) : Same s (numerical ps func lib s).1 := by
  -- every state the library leaves is `s` or an assignment to `s`
  have key : ∀ (t : Strategy ρ) (s' : Store), (s' = s ∨ (Assignable ps ∧ ∃ x, x.length = ps.length ∧ s' = at_ s ps x)) →
      ((drive ps func t s').1 = s ∨ (Assignable ps ∧ ∃ x, x.length = ps.length ∧ (drive ps func t s').1 = at_ s ps x)) := by
    intro t
    induction t with
    | done r => exact fun s' hs' => hs'
    | ask x k ih =>
      intro s' hs'
      rw [drive]
      rcases assignValues_bad s' ps x with ⟨e, he⟩ | ⟨-, he⟩ | ⟨hp, hx⟩
      · rw [he]
        exact hs'
      · rw [he]
        simp only
        cases func s' with
        | error e => exact hs'
        | ok v => exact ih v s' hs'
      · rw [assignValues_ok s' ps x hp hx]
        have ha : at_ s' ps x = at_ s ps x := by
          rcases hs' with rfl | ⟨-, y, hy, rfl⟩
          · rfl
          · exact at_at s ps y x hy hx
        have hs2 : (assignAll s' ((ps.zip x).map fun e => (e.1.id, e.2))) = at_ s ps x := ha
        simp only [hs2]
        cases func (at_ s ps x) with
        | error e => exact .inr ⟨hp, x, hx, rfl⟩
        | ok v => exact ih v _ (.inr ⟨hp, x, hx, rfl⟩)
  have h2 := key (lib (paramVals ps s)) s (.inl rfl)
  unfold numerical at h ⊢
  simp only at h ⊢
  obtain ⟨⟨d, q⟩, hd⟩ : ∃ d, d = drive ps func (lib (paramVals ps s)) s := ⟨_, rfl⟩
  rw [← hd] at h h2 ⊢
  cases q with
  | error e => simp at h
  | ok q =>
    simp only at h h2 ⊢
    rcases assignValues_bad d ps (paramVals ps s) with ⟨e, he⟩ | ⟨hn, he⟩ | ⟨hp, hx⟩
    · rw [he] at h
      simp at h
    · rw [he]
      simp only
      subst hn
      rcases h2 with rfl | ⟨-, x, hx, rfl⟩
      · exact fun i => ⟨rfl, rfl, rfl⟩
      · exact fun i => ⟨rfl, rfl, rfl⟩
    · rw [assignValues_ok d ps _ hp hx]
      rcases h2 with rfl | ⟨-, x, hx, rfl⟩
      · exact at_vals_self d ps
      · exact at_vals_same s ps x hx

/-- C92. Parameters that are not differentiated never change, also if the function raises. -/
theorem numerical_others {ρ : Type} (ps : List Ref) (func : Func) (lib : List Rat → Strategy ρ) (s : Store) (i : Nat) (hi : i ∉ ps.map (·.id)) :
    (numerical ps func lib s).1 i = s i := by
  have hone : ∀ (s' : Store) (x : List Rat), (assignValues s' (some ps) false (.list x)).1 i = s' i := by
    intro s' x
    rcases assignValues_bad s' ps x with ⟨e, he⟩ | ⟨-, he⟩ | ⟨hp, hx⟩
    · rw [he]
    · rw [he]
    · rw [assignValues_ok s' ps x hp hx]
      refine assignAll_untouched s' _ i fun hm => hi ?_
      simp only [List.map_map, List.mem_map, Function.comp] at hm
      obtain ⟨e, he, rfl⟩ := hm
      exact List.mem_map.2 ⟨e.1, (List.of_mem_zip he).1, rfl⟩
  have key : ∀ (t : Strategy ρ) (s' : Store), (drive ps func t s').1 i = s' i := by
    intro t
    induction t with
    | done r => exact fun s' => rfl
    | ask x k ih =>
      intro s'
      have h1 := hone s' x
      rw [drive]
      obtain ⟨⟨d, q⟩, hd⟩ : ∃ d, d = assignValues s' (some ps) false (.list x) := ⟨_, rfl⟩
      rw [← hd] at h1 ⊢
      cases q with
      | some e => exact h1
      | none =>
        simp only at h1 ⊢
        cases func d with
        | error e => exact h1
        | ok v => rw [← h1]; exact ih v d
  unfold numerical
  simp only
  have h2 := key (lib (paramVals ps s)) s
  obtain ⟨⟨d, q⟩, hd⟩ : ∃ d, d = drive ps func (lib (paramVals ps s)) s := ⟨_, rfl⟩
  rw [← hd] at h2 ⊢
  cases q with
  | error e => exact h2
  | ok q =>
    simp only at h2 ⊢
    have h3 := hone d (paramVals ps s)
    obtain ⟨⟨d', q'⟩, hd'⟩ : ∃ d', d' = assignValues d (some ps) false (.list (paramVals ps s)) := ⟨_, rfl⟩
    rw [← hd'] at h3 ⊢
    cases q' with
    | some e => exact h3.trans h2
    | none => exact h3.trans h2

end Zfit.Diff
