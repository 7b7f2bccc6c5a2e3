import Verif.Res.CovModel
import Verif.Common.Except
import Mathlib.Data.List.GetD
import Mathlib.Order.MinMax
import Mathlib.Data.List.Nodup

/-! Properties of covariances of fit results (C53, C54). -/

namespace Zfit.Res

open Zfit

/-! ## C53 -/

theorem mem_upper (n i j : ℕ) : (i, j) ∈ upper n ↔ i ≤ j ∧ j < n := by
  unfold upper
  simp only [List.mem_flatMap, List.mem_range, List.mem_map, Prod.mk.injEq]
  constructor
  · rintro ⟨i', hi, k, hk, rfl, rfl⟩
    omega
  · rintro ⟨h1, h2⟩
    exact ⟨i, by omega, j - i, by omega, rfl, by omega⟩

variable {K : Type}

theorem getD_inj {params : List ℕ} (hn : params.Nodup) {a b : ℕ} (ha : a < params.length) (hb : b < params.length)
    (h : params.getD a 0 = params.getD b 0) : a = b := by
  rw [List.getD_eq_getElem _ _ ha, List.getD_eq_getElem _ _ hb] at h
  exact (List.Nodup.getElem_inj_iff hn).1 h

theorem get_set (d : List ((ℕ × ℕ) × K)) (k k' : ℕ × ℕ) (v : K) :
    dictGet (dictSet d k v) k' = if k' = k then some v else dictGet d k' := by
  by_cases h : k' = k
  · rw [if_pos h, h, dictGet_set_self]
  · rw [if_neg h, dictGet_set_ne _ _ _ _ h]

theorem get_enter {params : List ℕ} (hn : params.Nodup) (m : ℕ → ℕ → K) (d : List ((ℕ × ℕ) × K)) {i j a b : ℕ} (hij : i ≤ j)
    (hj : j < params.length) (ha : a < params.length) (hb : b < params.length) :
    dictGet (enter params m d (i, j)) (params.getD a 0, params.getD b 0) =
      if (min a b, max a b) = (i, j) then some (m i j) else dictGet d (params.getD a 0, params.getD b 0) := by
  have hi : i < params.length := by omega
  have key : ∀ x y : ℕ, x < params.length → y < params.length →
      ((params.getD a 0, params.getD b 0) = (params.getD x 0, params.getD y 0) ↔ a = x ∧ b = y) := by
    intro x y hx hy
    rw [Prod.mk.injEq]
    exact ⟨fun h => ⟨getD_inj hn ha hx h.1, getD_inj hn hb hy h.2⟩, fun h => by rw [h.1, h.2]; exact ⟨rfl, rfl⟩⟩
  unfold enter
  simp only
  by_cases hne : i = j
  · subst hne
    simp only [ne_eq, not_true_eq_false, if_false]
    rw [get_set]
    by_cases h : a = i ∧ b = i
    · rw [if_pos ((key i i hi hi).2 h), if_pos (by rw [h.1, h.2]; simp)]
    · rw [if_neg (fun h' => h ((key i i hi hi).1 h')), if_neg]
      intro h'
      rw [Prod.mk.injEq] at h'
      omega
  · simp only [ne_eq, hne, not_false_iff, if_true]
    rw [get_set, get_set]
    by_cases h1 : a = j ∧ b = i
    · rw [if_pos ((key j i hj hi).2 h1), if_pos (by rw [h1.1, h1.2, Prod.mk.injEq]; omega)]
    · rw [if_neg (fun h' => h1 ((key j i hj hi).1 h'))]
      by_cases h2 : a = i ∧ b = j
      · rw [if_pos ((key i j hi hj).2 h2), if_pos (by rw [h2.1, h2.2, Prod.mk.injEq]; omega)]
      · rw [if_neg (fun h' => h2 ((key i j hi hj).1 h')), if_neg]
        intro h'
        rw [Prod.mk.injEq] at h'
        omega

theorem get_enters {params : List ℕ} (hn : params.Nodup) (m : ℕ → ℕ → K) (ps : List (ℕ × ℕ))
    (hps : ∀ ij ∈ ps, ij.1 ≤ ij.2 ∧ ij.2 < params.length) {a b : ℕ} (ha : a < params.length) (hb : b < params.length) :
    ∀ d, dictGet (ps.foldl (enter params m) d) (params.getD a 0, params.getD b 0) =
      if (min a b, max a b) ∈ ps then some (m (min a b) (max a b)) else dictGet d (params.getD a 0, params.getD b 0) := by
  induction ps with
  | nil => intro d; simp
  | cons ij ps ih =>
    intro d
    rw [List.foldl_cons, ih (fun x hx => hps x (List.mem_cons_of_mem _ hx))]
    obtain ⟨h1, h2⟩ := hps ij List.mem_cons_self
    by_cases hin : (min a b, max a b) ∈ ps
    · rw [if_pos hin, if_pos (List.mem_cons_of_mem _ hin)]
    · rw [if_neg hin, show ij = (ij.1, ij.2) from rfl, get_enter hn m d h1 h2 ha hb]
      by_cases he : (min a b, max a b) = (ij.1, ij.2)
      · rw [if_pos he, if_pos (by rw [he]; exact List.mem_cons_self)]
        rw [Prod.mk.injEq] at he
        rw [he.1, he.2]
      · rw [if_neg he, if_neg]
        rw [List.mem_cons, not_or]
        exact ⟨he, hin⟩

theorem get_foreign (params : List ℕ) (m : ℕ → ℕ → K) (ps : List (ℕ × ℕ))
    (hps : ∀ ij ∈ ps, ij.1 ≤ ij.2 ∧ ij.2 < params.length) (p q : ℕ) (h : p ∉ params ∨ q ∉ params) :
    ∀ d, dictGet (ps.foldl (enter params m) d) (p, q) = dictGet d (p, q) := by
  induction ps with
  | nil => intro d; rfl
  | cons ij ps ih =>
    intro d
    rw [List.foldl_cons, ih (fun x hx => hps x (List.mem_cons_of_mem _ hx))]
    obtain ⟨h1, h2⟩ := hps ij List.mem_cons_self
    have m1 : params.getD ij.1 0 ∈ params := by
      rw [List.getD_eq_getElem _ _ (by omega)]; exact List.getElem_mem _
    have m2 : params.getD ij.2 0 ∈ params := by
      rw [List.getD_eq_getElem _ _ (by omega)]; exact List.getElem_mem _
    have n1 : (p, q) ≠ (params.getD ij.1 0, params.getD ij.2 0) := by
      intro he
      rw [Prod.mk.injEq] at he
      rcases h with h | h
      · exact h (he.1 ▸ m1)
      · exact h (he.2 ▸ m2)
    have n2 : (p, q) ≠ (params.getD ij.2 0, params.getD ij.1 0) := by
      intro he
      rw [Prod.mk.injEq] at he
      rcases h with h | h
      · exact h (he.1 ▸ m2)
      · exact h (he.2 ▸ m1)
    unfold enter
    simp only
    split
    · rw [get_set, if_neg n2, get_set, if_neg n1]
    · rw [get_set, if_neg n1]

theorem upper_ok (n : ℕ) : ∀ ij ∈ upper n, ij.1 ≤ ij.2 ∧ ij.2 < n := fun ij h => (mem_upper n ij.1 ij.2).1 h

/-- C53: the dictionary of any matrix: under two parameters the entry of the upper triangle, whichever comes first. -/
theorem matrix_to_dict_entries (params : List ℕ) (hn : params.Nodup) (m : ℕ → ℕ → K) (a b : ℕ) (ha : a < params.length)
    (hb : b < params.length) :
    dictGet (matrixToDict params (some m)) (params[a], params[b]) = some (m (min a b) (max a b)) := by
  have := get_enters hn m (upper params.length) (upper_ok _) ha hb []
  rw [List.getD_eq_getElem _ _ ha, List.getD_eq_getElem _ _ hb] at this
  rw [matrixToDict, this, if_pos]
  rw [mem_upper]
  omega

/-- C53: nothing is in the dictionary for parameters that are not in the list. -/
theorem matrix_to_dict_foreign (params : List ℕ) (m : ℕ → ℕ → K) (p q : ℕ) (h : p ∉ params ∨ q ∉ params) :
    dictGet (matrixToDict params (some m)) (p, q) = none :=
  get_foreign params m _ (upper_ok _) p q h []

/-- C53: the dictionary is symmetric for any matrix, symmetric or not. -/
theorem matrix_to_dict_symmetric (params : List ℕ) (hn : params.Nodup) (m : ℕ → ℕ → K) (p q : ℕ) :
    dictGet (matrixToDict params (some m)) (p, q) = dictGet (matrixToDict params (some m)) (q, p) := by
  by_cases hp : p ∈ params
  · by_cases hq : q ∈ params
    · obtain ⟨a, ha, rfl⟩ := List.getElem_of_mem hp
      obtain ⟨b, hb, rfl⟩ := List.getElem_of_mem hq
      rw [matrix_to_dict_entries params hn m a b ha hb, matrix_to_dict_entries params hn m b a hb ha, min_comm, max_comm]
    · rw [matrix_to_dict_foreign _ _ _ _ (Or.inr hq), matrix_to_dict_foreign _ _ _ _ (Or.inl hq)]
  · rw [matrix_to_dict_foreign _ _ _ _ (Or.inl hp), matrix_to_dict_foreign _ _ _ _ (Or.inr hp)]

theorem get_fills (params : List ℕ) (d : List ((ℕ × ℕ) × K)) (ps : List (ℕ × ℕ)) (hps : ∀ ij ∈ ps, ij.1 ≤ ij.2)
    (hd : ∀ ij ∈ ps, (dictGet d (params.getD ij.1 0, params.getD ij.2 0)).isSome) :
    ∀ m0, ∃ M, ps.foldlM (fill params d) m0 = .ok M ∧ ∀ a b : ℕ, dictGet M (a, b) =
      if (min a b, max a b) ∈ ps then dictGet d (params.getD (min a b) 0, params.getD (max a b) 0)
      else dictGet m0 (a, b) := by
  induction ps with
  | nil => intro m0; exact ⟨m0, rfl, by simp⟩
  | cons ij ps ih =>
    intro m0
    obtain ⟨v, hv⟩ := Option.isSome_iff_exists.1 (hd ij List.mem_cons_self)
    have hij := hps ij List.mem_cons_self
    obtain ⟨m1, hm1, h1⟩ : ∃ m1, fill params d m0 ij = .ok m1 ∧ ∀ a b : ℕ, dictGet m1 (a, b) =
        if (min a b, max a b) = ij then some v else dictGet m0 (a, b) := by
      refine ⟨_, by unfold fill; rw [hv], ?_⟩
      intro a b
      rcases ij with ⟨i, j⟩
      simp only at hij ⊢
      by_cases hne : i = j
      · subst hne
        simp only [ne_eq, not_true_eq_false, if_false]
        rw [get_set]
        by_cases h : (a, b) = (i, i)
        · rw [if_pos h]
          rw [Prod.mk.injEq] at h
          rw [if_pos (by rw [h.1, h.2]; simp)]
        · rw [if_neg h, if_neg]
          intro h'
          rw [Prod.mk.injEq] at h h'
          omega
      · simp only [ne_eq, hne, not_false_iff, if_true]
        rw [get_set, get_set]
        simp only [Prod.mk.injEq]
        by_cases h1 : a = j ∧ b = i
        · rw [if_pos h1, if_pos (by omega)]
        · rw [if_neg h1]
          by_cases h2 : a = i ∧ b = j
          · rw [if_pos h2, if_pos (by omega)]
          · rw [if_neg h2, if_neg (by omega)]
    obtain ⟨M, hM, h2⟩ := ih (fun x hx => hps x (List.mem_cons_of_mem _ hx)) (fun x hx => hd x (List.mem_cons_of_mem _ hx)) m1
    refine ⟨M, by rw [List.foldlM_cons, hm1]; exact hM, ?_⟩
    intro a b
    rw [h2]
    by_cases hin : (min a b, max a b) ∈ ps
    · rw [if_pos hin, if_pos (List.mem_cons_of_mem _ hin)]
    · rw [if_neg hin, h1]
      by_cases he : (min a b, max a b) = ij
      · rw [if_pos he, if_pos (by rw [he]; exact List.mem_cons_self), ← hv, ← he]
      · rw [if_neg he, if_neg]
        rw [List.mem_cons, not_or]
        exact ⟨he, hin⟩

/-- `dict_to_matrix` when the upper triangle is there. -/
theorem dict_to_matrix_entries (params : List ℕ) (d : List ((ℕ × ℕ) × K))
    (hd : ∀ a b, a ≤ b → b < params.length → (dictGet d (params.getD a 0, params.getD b 0)).isSome) (hne : d ≠ []) :
    ∃ M, dictToMatrix params d = .ok (some M) ∧ ∀ a b, a < params.length → b < params.length →
      dictGet M (a, b) = dictGet d (params.getD (min a b) 0, params.getD (max a b) 0) := by
  obtain ⟨M, hM, h⟩ := get_fills params d (upper params.length) (fun ij hij => (upper_ok _ ij hij).1)
    (fun ij hij => hd ij.1 ij.2 (upper_ok _ ij hij).1 (upper_ok _ ij hij).2) []
  refine ⟨M, ?_, ?_⟩
  · unfold dictToMatrix
    rw [if_neg (by simpa using hne), hM]
    rfl
  · intro a b ha hb
    rw [h, if_pos]
    rw [mem_upper]
    omega

/-- C53: converting a symmetric matrix to a dictionary and back gives the matrix, for any number of parameters. -/
theorem matrix_round_trip (params : List ℕ) (hn : params.Nodup) (hp : params ≠ []) (m : ℕ → ℕ → K)
    (hm : ∀ a b, m a b = m b a) :
    ∃ M, dictToMatrix params (matrixToDict params (some m)) = .ok (some M) ∧
      ∀ a b, a < params.length → b < params.length → dictGet M (a, b) = some (m a b) := by
  have hlen : 0 < params.length := List.length_pos_iff.2 hp
  have hget : ∀ a b, a < params.length → b < params.length →
      dictGet (matrixToDict params (some m)) (params.getD a 0, params.getD b 0) = some (m (min a b) (max a b)) := by
    intro a b ha hb
    rw [List.getD_eq_getElem _ _ ha, List.getD_eq_getElem _ _ hb]
    exact matrix_to_dict_entries params hn m a b ha hb
  obtain ⟨M, hM, h⟩ := dict_to_matrix_entries params (matrixToDict params (some m)) (by
    intro a b hab hb
    rw [hget a b (by omega) hb]
    rfl) (by
    intro h0
    have := hget 0 0 hlen hlen
    rw [h0] at this
    cases this)
  refine ⟨M, hM, ?_⟩
  intro a b ha hb
  rw [h a b ha hb, hget _ _ (by omega) (by omega)]
  rcases Nat.le_total a b with hab | hab
  · rw [Nat.min_eq_left hab, Nat.max_eq_right hab, Nat.min_eq_left hab, Nat.max_eq_right hab]
  · rw [Nat.min_eq_right hab, Nat.max_eq_left hab, Nat.min_eq_left hab, Nat.max_eq_right hab, hm]

/-- A failed covariance (`None`) is an empty dictionary and becomes `None` again. -/
theorem matrix_none_round_trip (params : List ℕ) :
    matrixToDict params (none : Option (ℕ → ℕ → K)) = [] ∧ dictToMatrix params ([] : List ((ℕ × ℕ) × K)) = .ok none := ⟨rfl, rfl⟩

theorem get_restricts (d : List ((ℕ × ℕ) × K)) (ks : List (ℕ × ℕ)) (k : ℕ × ℕ) :
    ∀ r : List ((ℕ × ℕ) × Option K), dictGet (ks.foldl (fun r k => dictSet r k (dictGet d k)) r) k =
      if k ∈ ks then some (dictGet d k) else dictGet r k := by
  induction ks with
  | nil => intro r; simp
  | cons k' ks ih =>
    intro r
    rw [List.foldl_cons, ih]
    by_cases hin : k ∈ ks
    · rw [if_pos hin, if_pos (List.mem_cons_of_mem _ hin)]
    · rw [if_neg hin]
      by_cases he : k = k'
      · subst he
        rw [dictGet_set_self, if_pos List.mem_cons_self]
      · rw [dictGet_set_ne _ _ _ _ he, if_neg]
        rw [List.mem_cons, not_or]
        exact ⟨he, hin⟩

theorem get_restrict (sub : List ℕ) (d : List ((ℕ × ℕ) × K)) (p q : ℕ) (hp : p ∈ sub) (hq : q ∈ sub) :
    dictGet (restrict sub d) (p, q) = some (dictGet d (p, q)) := by
  unfold restrict
  rw [get_restricts, if_pos]
  simp only [List.mem_flatMap, List.mem_map, Prod.mk.injEq]
  exact ⟨p, hp, q, hq, rfl, rfl⟩

/-- C53: `covariance(params)` of some of the parameters, in any order, gives the entries of the full covariance matrix that
belong to them; the entry of a parameter that was not fitted is `None` (NaN in the matrix), not an error. -/
theorem covariance_of_subset (params : List ℕ) (hn : params.Nodup) (m : ℕ → ℕ → K) (hm : ∀ a b, m a b = m b a)
    (sub : List ℕ) (hs : sub ≠ []) :
    ∃ M, dictToMatrix sub (restrict sub (matrixToDict params (some m))) = .ok (some M) ∧
      ∀ (a b : ℕ) (ha : a < sub.length) (hb : b < sub.length),
        (∀ i j, params[i]? = some sub[a] → params[j]? = some sub[b] → dictGet M (a, b) = some (some (m i j))) ∧
        (sub[a] ∉ params ∨ sub[b] ∉ params → dictGet M (a, b) = some none) := by
  have hlen : 0 < sub.length := List.length_pos_iff.2 hs
  have hmem : ∀ a, a < sub.length → sub.getD a 0 ∈ sub := by
    intro a ha
    rw [List.getD_eq_getElem _ _ ha]
    exact List.getElem_mem _
  obtain ⟨M, hM, h⟩ := dict_to_matrix_entries sub (restrict sub (matrixToDict params (some m))) (by
    intro a b hab hb
    rw [get_restrict _ _ _ _ (hmem a (by omega)) (hmem b hb)]
    rfl) (by
    intro h0
    have := get_restrict sub (matrixToDict params (some m)) _ _ (hmem 0 hlen) (hmem 0 hlen)
    rw [h0] at this
    cases this)
  refine ⟨M, hM, ?_⟩
  intro a b ha hb
  have hsym : dictGet M (a, b) = some (dictGet (matrixToDict params (some m)) (sub[a], sub[b])) := by
    rw [h a b ha hb, get_restrict _ _ _ _ (hmem _ (by omega)) (hmem _ (by omega))]
    rcases Nat.le_total a b with hab | hab
    · rw [Nat.min_eq_left hab, Nat.max_eq_right hab, List.getD_eq_getElem _ _ ha, List.getD_eq_getElem _ _ hb]
    · rw [Nat.min_eq_right hab, Nat.max_eq_left hab, List.getD_eq_getElem _ _ ha, List.getD_eq_getElem _ _ hb,
        matrix_to_dict_symmetric params hn]
  constructor
  · intro i j hi hj
    rw [hsym]
    obtain ⟨hi', hie⟩ := List.getElem?_eq_some_iff.1 hi
    obtain ⟨hj', hje⟩ := List.getElem?_eq_some_iff.1 hj
    rw [← hie, ← hje, matrix_to_dict_entries params hn m i j hi' hj']
    rcases Nat.le_total i j with hab | hab
    · rw [Nat.min_eq_left hab, Nat.max_eq_right hab]
    · rw [Nat.min_eq_right hab, Nat.max_eq_left hab, hm]
  · intro hf
    rw [hsym, matrix_to_dict_foreign _ _ _ _ hf]

/-- Three parameters, and the sub-matrix for two of them in the other order. -/
example : (dictToMatrix [7, 5] (restrict [7, 5] (matrixToDict [5, 6, 7] (some fun i j => i * j + i + j)))).map
    (fun M => M.map fun M => [dictGet M (0, 0), dictGet M (0, 1), dictGet M (1, 0), dictGet M (1, 1)])
    = .ok (some [some (some 8), some (some 2), some (some 2), some (some 0)]) := by decide +kernel

/-! ## C54 -/

variable {C : Type}

/-- The covariance for a method and a weight correction: the corrected one if a correction is asked for and the data are
weighted. -/
def Fit.asked (f : Fit C) (method : ℕ) (w : Corr) : C :=
  if f.weighted = true then (match w with | .off => f.plain method | w => f.corrected method w) else f.plain method

/-- The calls that ask for a covariance with this method, and the correction they ask for (hesse: if it passes its checks
it asks for the given correction, or the default). -/
def Call.asksFor (f : Fit C) : Call → Option (ℕ × Corr)
  | .covariance m w => some (m.getD f.default, w.getD .asymptotic)
  | .hesse m _ _ w => some (m, w.getD (if f.weighted then .asymptotic else .off))
  | .errors _ _ _ => none

/-- Everything in the cache of covariances was asked for in a call of the history. -/
def CovInv (f : Fit C) (h : List Call) (s : Cached C) : Prop :=
  ∀ m c, dictGet s.cov m = some c → ∃ call ∈ h, ∃ w, call.asksFor f = some (m, w) ∧ c = f.asked m w

theorem compute_asked (f : Fit C) (m : ℕ) (w : Corr) (c : C) (h : f.compute m w = .ok c) : c = f.asked m w := by
  unfold Fit.compute at h
  split at h
  · cases h
    unfold Fit.asked
    cases f.weighted <;> cases w <;> simp
  · cases h

theorem covariance_answer (f : Fit C) (s : Cached C) (m : Option ℕ) (w : Option Corr) (c : C)
    (h : (f.covariance s m w).2 = .ok c) :
    dictGet s.cov (m.getD f.default) = some c ∨
      (dictGet s.cov (m.getD f.default) = none ∧ c = f.asked (m.getD f.default) (w.getD .asymptotic)) := by
  unfold Fit.covariance at h
  simp only at h
  cases hg : dictGet s.cov (m.getD f.default) with
  | some c' =>
    rw [hg] at h
    cases h
    exact Or.inl rfl
  | none =>
    rw [hg] at h
    simp only at h
    cases hc : f.compute (m.getD f.default) (w.getD .asymptotic) with
    | ok c' =>
      rw [hc] at h
      cases h
      exact Or.inr ⟨rfl, compute_asked f _ _ _ hc⟩
    | error e =>
      rw [hc] at h
      cases h

theorem covariance_inv (f : Fit C) (h : List Call) (s : Cached C) (hs : CovInv f h s) (call : Call) (m : Option ℕ) (w : Option Corr)
    (ha : call.asksFor f = some (m.getD f.default, w.getD .asymptotic)) :
    CovInv f (h ++ [call]) (f.covariance s m w).1 := by
  have old : CovInv f (h ++ [call]) s := by
    intro m' c' hc
    obtain ⟨cl, hcl, w', hw⟩ := hs m' c' hc
    exact ⟨cl, List.mem_append_left _ hcl, w', hw⟩
  unfold Fit.covariance
  simp only
  cases hg : dictGet s.cov (m.getD f.default) with
  | some c' => exact old
  | none =>
    simp only
    cases hc : f.compute (m.getD f.default) (w.getD .asymptotic) with
    | error e => exact old
    | ok c' =>
      intro m' c'' hm
      simp only at hm
      by_cases he : m' = m.getD f.default
      · rw [he, dictGet_set_self] at hm
        cases hm
        exact ⟨call, by simp, _, by rw [he]; exact ha, by rw [he]; exact compute_asked f _ _ _ hc⟩
      · rw [dictGet_set_ne _ _ _ _ he] at hm
        exact old m' c'' hm

theorem hesse_cov (f : Fit C) (s : Cached C) (m name : ℕ) (cl : Rat) (w : Option Corr) :
    (f.hesse s m name cl w).1.cov = s.cov ∨
      (f.hesse s m name cl w).1.cov =
        (f.covariance s (some m) (some (w.getD (if f.weighted then .asymptotic else .off)))).1.cov := by
  unfold Fit.hesse
  by_cases h : cl ≥ 1
  · rw [if_pos h]
    exact Or.inl rfl
  · rw [if_neg h]
    obtain ⟨w', hw'⟩ : ∃ w', w' = w.getD (if f.weighted then .asymptotic else .off) := ⟨_, rfl⟩
    simp only [← hw']
    split
    · exact Or.inl rfl
    · split
      · exact Or.inl rfl
      · split
        · rename_i heq; right; rw [heq]
        · rename_i heq; right; rw [heq]

theorem after_inv (f : Fit C) (h : List Call) (s : Cached C) (hs : CovInv f h s) (call : Call) :
    CovInv f (h ++ [call]) (f.after s call) := by
  have old : ∀ s' : Cached C, s'.cov = s.cov → CovInv f (h ++ [call]) s' := by
    intro s' hs' m' c' hc
    rw [hs'] at hc
    obtain ⟨cl, hcl, w', hw⟩ := hs m' c' hc
    exact ⟨cl, List.mem_append_left _ hcl, w', hw⟩
  cases call with
  | covariance m w => exact covariance_inv f h s hs _ m w rfl
  | hesse m name cl w =>
    show CovInv f _ (f.hesse s m name cl w).1
    rcases hesse_cov f s m name cl w with he | he
    · exact old _ he
    · intro m' c' hc
      rw [he] at hc
      exact covariance_inv f h s hs (.hesse m name cl w) (some m) (some _) rfl m' c' hc
  | errors name cl new =>
    refine old _ ?_
    show (errorsCall s name cl new).1.cov = _
    unfold errorsCall
    split <;> rfl

/-- A fresh result. -/
def fresh : Cached C := ⟨[], []⟩

theorem history_inv (f : Fit C) (h : List Call) : CovInv f h (h.foldl f.after fresh) := by
  suffices H : ∀ (h h0 : List Call) (s : Cached C), CovInv f h0 s → CovInv f (h0 ++ h) (h.foldl f.after s) from
    H h [] fresh (by intro m c hc; cases hc)
  intro h
  induction h with
  | nil => intro h0 s hs; simpa using hs
  | cons call h ih =>
    intro h0 s hs
    have := ih (h0 ++ [call]) _ (after_inv f h0 s hs call)
    simpa using this

/-- C54, as far as it holds: after any history of calls, `covariance(method, weightcorr)` gives the covariance for this
method and correction if every earlier call with this method that asks for a covariance asks for the same correction, or if
the data are not weighted.  In every case the answer is the covariance for this method with a correction that was asked for
now or before. Missing from the full claim: the cases of `covariance_correction_violated`, `hesse_correction_violated`,
`hesse_after_errors_violated`. -/
theorem covariance_as_asked_partial (f : Fit C) (h : List Call) (m : Option ℕ) (w : Option Corr) (c : C)
    (hc : (f.covariance (h.foldl f.after fresh) m w).2 = .ok c) :
    ((f.weighted = false ∨
        ∀ call ∈ h, ∀ w', call.asksFor f = some (m.getD f.default, w') → w' = w.getD .asymptotic) →
      c = f.asked (m.getD f.default) (w.getD .asymptotic)) ∧
    ∃ call ∈ h ++ [.covariance m w], ∃ w', call.asksFor f = some (m.getD f.default, w') ∧ c = f.asked (m.getD f.default) w' := by
  rcases covariance_answer f _ m w c hc with hg | ⟨_, hg⟩
  · obtain ⟨call, hcall, w', hw', hcw⟩ := history_inv f h _ c hg
    constructor
    · rintro (hu | hall)
      · rw [hcw]
        unfold Fit.asked
        simp [hu]
      · rw [hcw, hall call hcall w' hw']
    · exact ⟨call, List.mem_append_left _ hcall, w', hw', hcw⟩
  · exact ⟨fun _ => hg, .covariance m w, by simp, _, rfl, hg⟩

/-- C54: an unknown method is always refused with a `KeyError`, whatever was asked before. -/
theorem covariance_unknown_method (f : Fit C) (h : List Call) (m : ℕ) (w : Option Corr) (hm : f.known m = false) :
    (f.covariance (h.foldl f.after fresh) (some m) w).2 = .error .keyError := by
  have hnone : dictGet (h.foldl f.after (fresh : Cached C)).cov m = none := by
    have H : ∀ (h : List Call) (s : Cached C), dictGet s.cov m = none → dictGet (h.foldl f.after s).cov m = none := by
      intro h
      induction h with
      | nil => intro s hs; exact hs
      | cons call h ih =>
        intro s hs
        refine ih _ ?_
        have cov : ∀ (m' : Option ℕ) (w' : Option Corr), dictGet (f.covariance s m' w').1.cov m = none := by
          intro m' w'
          unfold Fit.covariance
          simp only
          cases dictGet s.cov (m'.getD f.default) with
          | some c => exact hs
          | none =>
            simp only
            cases hc : f.compute (m'.getD f.default) (w'.getD .asymptotic) with
            | error e => exact hs
            | ok c =>
              simp only
              rw [dictGet_set_ne _ _ _ _ ?_]
              · exact hs
              · intro he
                unfold Fit.compute at hc
                rw [← he, hm] at hc
                cases hc
        cases call with
        | covariance m' w' => exact cov m' w'
        | hesse m' name cl w' =>
          show dictGet (f.hesse s m' name cl w').1.cov m = none
          rcases hesse_cov f s m' name cl w' with he | he
          · rw [he]; exact hs
          · rw [he]; exact cov _ _
        | errors name cl new =>
          show dictGet (errorsCall s name cl new).1.cov m = none
          unfold errorsCall
          split <;> exact hs
    exact H h fresh rfl
  unfold Fit.covariance
  simp only [Option.getD_some]
  rw [hnone]
  simp only [Fit.compute, hm, Bool.false_eq_true, if_false]

/-- A weighted fit: the covariance is a text saying how it was computed. -/
def exFit : Fit (ℕ × Option Corr) := ⟨true, fun m => (m, none), fun m w => (m, some w), fun m => m < 3, 0⟩

/-- A history meeting the hypotheses. -/
example : (exFit.covariance ([Call.covariance (some 1) (some .off), .hesse 0 9 (1/2) none, .errors 9 (1/2) true].foldl exFit.after fresh)
    none none).2 = .ok (0, some .asymptotic) := by decide +kernel

/-- C54 fails: asking for the uncorrected covariance after the corrected one of the same method gives the corrected one
again, and the other way round. -/
theorem covariance_correction_violated :
    (exFit.covariance ([Call.covariance (some 0) none].foldl exFit.after fresh) (some 0) (some .off)).2
      = .ok (0, some .asymptotic)
    ∧ exFit.asked 0 .off = (0, none)
    ∧ (exFit.covariance ([Call.covariance (some 0) (some .off)].foldl exFit.after fresh) (some 0) (some .effsize)).2
      = .ok (0, none)
    ∧ exFit.asked 0 .effsize = (0, some .effsize) := by decide +kernel

/-- C54 fails for `hesse` as well: an explicitly requested correction is not used if the method was used before. -/
theorem hesse_correction_violated :
    (exFit.hesse ([Call.covariance (some 0) (some .off)].foldl exFit.after fresh) 0 5 (1/2) (some .asymptotic)).2
      = .ok (0, none) := by decide +kernel

/-- After `errors` found a new minimum, `hesse` under the same name raises a `TypeError` (it reads the confidence level of
a text); after `errors` without one, a weighted `hesse` under the same name raises a `KeyError` instead of the `NameError`
it is about to raise. -/
theorem hesse_after_errors_violated :
    (exFit.hesse ([Call.errors 5 (1/2) true].foldl exFit.after fresh) 0 5 (1/2) none).2 = .error .typeError
    ∧ (exFit.hesse ([Call.errors 5 (1/2) false].foldl exFit.after fresh) 0 5 (1/2) none).2 = .error .keyError := by
  decide +kernel

/-- The confidence level of `hesse` has to be below one, a correction needs weighted data, and a name is not reused for
another confidence level or correction: in these cases `hesse` raises and changes nothing. The levels count as the same if they
differ by at most 0.003 of what is missing to one; then the name does not matter. -/
theorem hesse_rejects (f : Fit C) (s : Cached C) (m name : ℕ) (cl : Rat) (w : Option Corr) :
    (1 ≤ cl → f.hesse s m name cl w = (s, .error .valueError)) ∧
    (cl < 1 → f.weighted = false → (w = some .asymptotic ∨ w = some .effsize) →
      f.hesse s m name cl w = (s, .error .valueError)) ∧
    (∀ cl' w', cl < 1 → f.weighted = true → dictGet s.entries name = some (.error cl' (some w')) →
      ((1 / 1000000000 * max |cl'| |cl| < |cl' - cl| ∧ 3 / 1000 * (1 - cl) < |cl' - cl|) ∨ w.getD .asymptotic ≠ w') →
      f.hesse s m name cl w = (s, .error .nameError)) ∧
    (∀ cl' w', cl < 1 → f.weighted = true → dictGet s.entries name = some (.error cl' (some w')) →
      |cl' - cl| ≤ 3 / 1000 * (1 - cl) → w.getD .asymptotic = w' →
      (f.hesse s m name cl w).2 = (f.covariance s (some m) (some w')).2) := by
  refine ⟨?_, ?_, ?_, ?_⟩
  · intro h
    unfold Fit.hesse
    rw [if_pos h]
  · intro h hw hc
    unfold Fit.hesse
    rw [if_neg (not_le.2 h)]
    simp only
    rw [if_pos]
    rcases hc with rfl | rfl <;> simp [hw]
  · intro cl' w' h hw he hc
    unfold Fit.hesse
    rw [if_neg (not_le.2 h)]
    simp only [hw, if_true]
    rw [if_neg (by simp)]
    have : checkName s name cl (some (w.getD .asymptotic)) = .error .nameError := by
      unfold checkName
      rw [he]
      rcases hc with hc | hc
      · have : isclose cl' cl = false := by
          unfold isclose
          rw [decide_eq_false_iff_not, not_le]
          exact max_lt hc.1 hc.2
        simp [this]
      · cases hi : isclose cl' cl <;> simp [hc]
    rw [this]
  · intro cl' w' h hw he hc hcorr
    have hi : isclose cl' cl = true := by
      unfold isclose
      rw [decide_eq_true_iff]
      exact le_trans hc (le_max_right _ _)
    have : checkName s name cl (some (w.getD .asymptotic)) = .ok () := by
      unfold checkName
      rw [he]
      simp [hi, hcorr]
    unfold Fit.hesse
    rw [if_neg (not_le.2 h)]
    simp only [hw, if_true]
    rw [if_neg (by simp), this, hcorr]
    dsimp only
    rcases f.covariance s (some m) (some w') with ⟨s', e | c⟩ <;> rfl

end Zfit.Res
