import Verif.Binned.Spec
import Verif.Common.Except
import Mathlib.Data.List.Nodup
import Mathlib.Tactic.Linarith
import Mathlib.Algebra.BigOperators.Group.List.Basic

namespace Zfit.Bin

open Zfit

theorem takeWhile_sorted_length {l : List Rat} (h : l.Pairwise (· < ·)) (x : Rat) (i : Nat) :
    (l.takeWhile (fun e => decide (e ≤ x))).length = i ∧ i < l.length ↔
      ∃ hi, l[i]? = some hi ∧ x < hi ∧ ∀ j e, j < i → l[j]? = some e → e ≤ x := by
  induction l generalizing i with
  | nil => simp
  | cons a l ih =>
    have hl := List.Pairwise.of_cons h
    by_cases hax : a ≤ x
    · rw [List.takeWhile_cons_of_pos (by simpa using hax)]
      cases i with
      | zero =>
        simp only [List.length_cons, Nat.succ_ne_zero, Nat.add_one_ne_zero, false_and, List.getElem?_cons_zero,
          Option.some.injEq, exists_eq_left', false_iff, not_and]
        intro hx; exact absurd hx (not_lt.2 hax)
      | succ i =>
        simp only [List.length_cons, Nat.add_right_cancel_iff, Nat.add_lt_add_iff_right, List.getElem?_cons_succ]
        rw [ih hl i]
        constructor
        · rintro ⟨b, h1, h2, h3⟩
          refine ⟨b, h1, h2, ?_⟩
          intro j e hj he
          cases j with
          | zero => simp at he; exact he ▸ hax
          | succ j => exact h3 j e (by omega) (by simpa using he)
        · rintro ⟨b, h1, h2, h3⟩
          exact ⟨b, h1, h2, fun j e hj he => h3 (j + 1) e (by omega) (by simpa using he)⟩
    · rw [List.takeWhile_cons_of_neg (by simpa using hax)]
      cases i with
      | zero =>
        simp only [List.length_nil, List.length_cons, Nat.zero_lt_succ, and_self, List.getElem?_cons_zero,
          Option.some.injEq, exists_eq_left', true_iff]
        exact ⟨not_le.1 hax, fun j e hj => absurd hj (by omega)⟩
      | succ i =>
        simp only [List.length_nil]
        constructor
        · rintro ⟨h1, _⟩; omega
        · rintro ⟨b, h1, h2, h3⟩
          exact absurd (h3 0 a (by omega) rfl) hax

theorem getLastD_mem_of_lt {a : Rat} {l : List Rat} (h : (a :: l).Pairwise (· < ·)) {x : Rat} (hx : x ∈ l.dropLast) :
    x < l.getLastD a := by
  cases l with
  | nil => simp at hx
  | cons b l =>
    have hl := List.Pairwise.of_cons h
    have hne : b :: l ≠ [] := by simp
    have := List.dropLast_append_getLast hne
    rw [← this] at hl
    have h2 := (List.pairwise_append.1 hl).2.2 x hx ((b :: l).getLast hne) (by simp)
    simpa [List.getLastD_eq_getLast?, List.getLast?_eq_getLast_of_ne_nil hne] using h2

/-- The bin index is exactly the index of the bin that contains the value. -/
theorem findBin_iff {incl : Bool} {edges : List Rat} (h : GoodEdges edges) {x : Rat} {i : Nat} :
    findBin incl edges x = some i ↔ inBin incl edges i x = true := by
  obtain ⟨hs, hlen⟩ := h
  match edges, hs, hlen with
  | e0 :: e1 :: rest, hs, _ =>
    have hr := List.Pairwise.of_cons hs
    set r := e1 :: rest with hrdef
    have hrl : r.length = rest.length + 1 := by simp [hrdef]
    have mono : ∀ (a b : Nat) (u v : Rat), a < b → (e0 :: r)[a]? = some u → (e0 :: r)[b]? = some v → u < v := by
      intro a b u v hab hu hv
      obtain ⟨ha', rfl⟩ := List.getElem?_eq_some_iff.1 hu
      obtain ⟨hb', rfl⟩ := List.getElem?_eq_some_iff.1 hv
      exact List.pairwise_iff_getElem.1 hs a b ha' hb' hab
    have hlast : (e0 :: r)[r.length]? = some (r.getLastD e0) := by
      simp [hrdef, List.getLastD_eq_getLast?, List.getLast?_eq_getElem?]
    unfold findBin inBin
    by_cases hx0 : x < e0
    · simp only [hx0, if_true]
      constructor
      · intro h; cases h
      · intro h
        split at h
        · rename_i lo hi hlo hhi
          simp only [Bool.and_eq_true, decide_eq_true_eq] at h
          rcases Nat.eq_zero_or_pos i with rfl | hip
          · simp at hlo; linarith [h.1]
          · have := mono 0 i e0 lo hip rfl hlo
            linarith [h.1]
        · cases h
    · simp only [hx0, if_false]
      have hx0' := not_lt.1 hx0
      by_cases hinc : incl = true ∧ x = r.getLastD e0
      · simp only [hinc.1, true_and, ← hinc.2, if_true]
        simp only [Option.some.injEq, hrl, Nat.add_sub_cancel]
        constructor
        · rintro rfl
          have hi1 : (e0 :: r)[rest.length + 1]? = some x := by rw [← hrl, hlast, hinc.2]
          have hi0 : ∃ lo, (e0 :: r)[rest.length]? = some lo := by
            exact ⟨_, List.getElem?_eq_getElem (by simp only [List.length_cons, hrl]; omega)⟩
          obtain ⟨lo, hlo⟩ := hi0
          rw [hlo, hi1]
          have := mono _ _ _ _ (Nat.lt_succ_self rest.length) hlo hi1
          simp [le_of_lt this, hrl]
        · intro h
          split at h
          · rename_i lo hi hlo hhi
            simp only [Bool.and_eq_true, Bool.or_eq_true, decide_eq_true_eq] at h
            have hi1 : (e0 :: r)[rest.length + 1]? = some x := by rw [← hrl, hlast, hinc.2]
            have hile : i + 1 < (e0 :: r).length := (List.getElem?_eq_some_iff.1 hhi).1
            simp only [List.length_cons, hrl] at hile
            by_contra hne
            rcases h.2 with h2 | h2
            · have hlt : i + 1 < rest.length + 1 := by omega
              have := mono _ _ _ _ hlt hhi hi1
              linarith
            · have : i + 2 = rest.length + 1 + 1 := by simpa [hrl] using h2.2
              omega
          · cases h
      · have hinc' : ¬ (incl = true ∧ x = r.getLastD e0) := hinc
        rw [if_neg hinc']
        have key := takeWhile_sorted_length hr x
        constructor
        · intro h
          split at h
          · rename_i hlt
            cases h
            obtain ⟨hi, h1, h2, h3⟩ := (key _).1 ⟨rfl, hlt⟩
            set i := (r.takeWhile (fun e => decide (e ≤ x))).length with hidef
            rw [List.getElem?_cons_succ, h1]
            cases hi' : i with
            | zero => simp [h2, hx0']
            | succ k =>
              have : ∃ lo, r[k]? = some lo := ⟨_, List.getElem?_eq_getElem (by omega)⟩
              obtain ⟨lo, hlo⟩ := this
              rw [List.getElem?_cons_succ, hlo]
              have := h3 k lo (by omega) hlo
              simp [h2, this]
          · cases h
        · intro h
          split at h
          · rename_i lo hi hlo hhi
            simp only [Bool.and_eq_true, Bool.or_eq_true, decide_eq_true_eq] at h
            rw [List.getElem?_cons_succ] at hhi
            have hxhi : x < hi := by
              rcases h.2 with h2 | h2
              · exact h2
              · exfalso
                apply hinc'
                refine ⟨h2.1.1, ?_⟩
                rw [h2.1.2]
                have hi2 : i = rest.length := by have := h2.2; simp [hrl] at this; omega
                have h4 : (e0 :: r)[r.length]? = some hi := by rw [hrl, List.getElem?_cons_succ, ← hi2, hhi]
                rw [hlast] at h4
                exact (Option.some.inj h4).symm
            have := (key i).2 ⟨hi, hhi, hxhi, ?_⟩
            · rw [this.1, if_pos this.2]
            · intro j e hj he
              rcases Nat.lt_or_ge (j + 1) i with hlt | hge
              · have := mono (j + 1) i e lo hlt (by rw [List.getElem?_cons_succ, he]) hlo
                linarith [h.1]
              · have : j + 1 = i := by omega
                rw [← this, List.getElem?_cons_succ, he] at hlo
                cases hlo; exact h.1
          · cases h

theorem findBin_lt {incl : Bool} {edges : List Rat} {x : Rat} {i : Nat} (hl : 2 ≤ edges.length) (h : findBin incl edges x = some i) :
    i < edges.length - 1 := by
  match edges, hl with
  | e0 :: e1 :: rest, _ =>
    simp only [findBin] at h
    by_cases h1 : x < e0
    · simp [h1] at h
    · rw [if_neg h1] at h
      by_cases h2 : incl = true ∧ x = (e1 :: rest).getLastD e0
      · rw [if_pos h2] at h; cases h; simp
      · rw [if_neg h2] at h
        by_cases h3 : ((e1 :: rest).takeWhile (fun e => decide (e ≤ x))).length < (e1 :: rest).length
        · rw [if_pos h3] at h; cases h; simpa using h3
        · rw [if_neg h3] at h; cases h

/-- A value is in some bin exactly if it is between the first and the last edge. -/
theorem findBin_isSome {incl : Bool} {edges : List Rat} (h : GoodEdges edges) {x : Rat} :
    (findBin incl edges x).isSome = inRange incl edges x := by
  obtain ⟨hs, hlen⟩ := h
  match edges, hs, hlen with
  | e0 :: e1 :: rest, hs, _ =>
    have hr := List.Pairwise.of_cons hs
    unfold findBin inRange
    set r := e1 :: rest with hrdef
    have hlast : (e0 :: r).getLast? = some (r.getLastD e0) := by
      simp [hrdef, List.getLastD_eq_getLast?, List.getLast?_eq_getElem?]
    rw [hlast]
    simp only [List.head?_cons]
    by_cases hx0 : x < e0
    · simp [hx0]
    · simp only [hx0, if_false, not_lt.1 hx0, decide_true, Bool.true_and]
      by_cases hinc : incl = true ∧ x = r.getLastD e0
      · rw [if_pos hinc]; simp [hinc.1, hinc.2]
      · rw [if_neg hinc]
        have hc : (incl && decide (x = r.getLastD e0)) = false := by
          rw [Bool.eq_false_iff]; simpa using hinc
        rw [hc, Bool.or_false]
        by_cases hlt : (r.takeWhile (fun e => decide (e ≤ x))).length < r.length
        · simp only [hlt, if_true, Option.isSome_some]
          obtain ⟨hi, h1, h2, _⟩ := (takeWhile_sorted_length hr x _).1 ⟨rfl, hlt⟩
          symm
          rw [decide_eq_true_eq]
          have hne : r ≠ [] := by simp [hrdef]
          obtain ⟨hi', rfl⟩ := List.getElem?_eq_some_iff.1 h1
          have : r.getLastD e0 = r[r.length - 1]'(by omega) := by
            rw [List.getLastD_eq_getLast?, List.getLast?_eq_getElem?, List.getElem?_eq_getElem (by omega)]; rfl
          rw [this]
          rcases Nat.lt_or_ge (r.takeWhile (fun e => decide (e ≤ x))).length (r.length - 1) with hq | hq
          · exact lt_trans h2 (List.pairwise_iff_getElem.1 hr _ _ hi' (by omega) hq)
          · have he : r.length - 1 = (r.takeWhile (fun e => decide (e ≤ x))).length := by omega
            simpa [he] using h2
        · simp only [hlt, if_false, Option.isSome_none]
          symm
          rw [decide_eq_false_iff_not]
          intro hx
          apply hlt
          have hall : r.takeWhile (fun e => decide (e ≤ x)) = r := by
            have hp := List.takeWhile_prefix (l := r) (fun e => decide (e ≤ x))
            exact hp.eq_of_length_le (not_lt.1 hlt)
          have hm : r.getLastD e0 ∈ r := by
            simp [hrdef, List.getLastD_eq_getLast?, List.getLast?_eq_getLast_of_ne_nil]
          have := List.all_takeWhile (p := fun e => decide (e ≤ x)) (l := r)
          rw [hall, List.all_eq_true] at this
          have := of_decide_eq_true (this _ hm)
          linarith

end Zfit.Bin
