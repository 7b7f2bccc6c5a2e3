import Verif.Num.BernModel
import Mathlib.Analysis.Calculus.Deriv.Mul
import Mathlib.Analysis.Calculus.Deriv.Add
import Mathlib.MeasureTheory.Integral.IntervalIntegral.FundThmCalculus
import Mathlib.Tactic.LinearCombination
import Mathlib.Tactic.FieldSimp
import Mathlib.Data.List.GetD
import Mathlib.Data.Nat.Choose.Sum

/-! Lemmas about Bernstein polynomials. -/

namespace Zfit.Num

open Zfit

/-- De Casteljau's recursion. -/
noncomputable def bz : ℕ → (ℕ → ℝ) → ℝ → ℝ
  | 0, c, _ => c 0
  | n + 1, c, x => bz n c x * (1 - x) + bz n (fun k => c (k + 1)) x * x

theorem bz_congr (n : ℕ) (c d : ℕ → ℝ) (x : ℝ) (h : ∀ k ≤ n, c k = d k) : bz n c x = bz n d x := by
  induction n generalizing c d with
  | zero => exact h 0 (Nat.le_refl 0)
  | succ n ih =>
    rw [bz, bz, ih c d (fun k hk => h k (by omega)), ih _ (fun k => d (k + 1)) (fun k hk => h (k + 1) (by omega))]

theorem bz_sub (n : ℕ) (c d : ℕ → ℝ) (x : ℝ) : bz n (fun k => c k - d k) x = bz n c x - bz n d x := by
  induction n generalizing c d with
  | zero => rfl
  | succ n ih =>
    rw [bz, bz, bz, ih, ih (fun k => c (k + 1)) (fun k => d (k + 1))]
    ring

theorem bz_const_mul (n : ℕ) (a : ℝ) (c : ℕ → ℝ) (x : ℝ) : bz n (fun k => a * c k) x = a * bz n c x := by
  induction n generalizing c with
  | zero => rfl
  | succ n ih =>
    rw [bz, bz, ih, ih (fun k => c (k + 1))]
    ring

/-! ### the explicit formula -/

theorem bz_sum (n : ℕ) (c : ℕ → ℝ) (x : ℝ) :
    bz n c x = ∑ k ∈ Finset.range (n + 1), c k * (n.choose k) * x ^ k * (1 - x) ^ (n - k) := by
  induction n generalizing c with
  | zero => simp [bz]
  | succ n ih =>
    rw [bz, ih, ih (fun k => c (k + 1))]
    rw [Finset.sum_range_succ' (fun k => c k * ((n + 1).choose k) * x ^ k * (1 - x) ^ (n + 1 - k)),
      Finset.sum_range_succ (fun k => c (k + 1) * ((n + 1).choose (k + 1)) * x ^ (k + 1) * (1 - x) ^ (n + 1 - (k + 1)))]
    rw [Finset.sum_range_succ' (fun k => c k * (n.choose k) * x ^ k * (1 - x) ^ (n - k)),
      Finset.sum_range_succ (fun k => c (k + 1) * (n.choose k) * x ^ k * (1 - x) ^ (n - k))]
    have hs : ∑ k ∈ Finset.range n, c (k + 1) * ((n + 1).choose (k + 1)) * x ^ (k + 1) * (1 - x) ^ (n + 1 - (k + 1))
        = (∑ k ∈ Finset.range n, c (k + 1) * (n.choose (k + 1)) * x ^ (k + 1) * (1 - x) ^ (n - (k + 1))) * (1 - x)
          + (∑ k ∈ Finset.range n, c (k + 1) * (n.choose k) * x ^ k * (1 - x) ^ (n - k)) * x := by
      rw [Finset.sum_mul, Finset.sum_mul, ← Finset.sum_add_distrib]
      refine Finset.sum_congr rfl fun k hk => ?_
      rw [Finset.mem_range] at hk
      obtain ⟨j, rfl⟩ : ∃ j, n = k + 1 + j := ⟨n - (k + 1), by omega⟩
      rw [Nat.choose_succ_succ]
      rw [show k + 1 + j + 1 - (k + 1) = j + 1 by omega, show k + 1 + j - (k + 1) = j by omega,
        show k + 1 + j - k = j + 1 by omega]
      push_cast
      ring
    rw [hs]
    simp only [Nat.choose_zero_right, Nat.choose_self, Nat.sub_self, Nat.sub_zero, pow_zero, Nat.cast_one]
    ring

/-! ### the loops -/

theorem getD_set (l : List ℝ) (i j : ℕ) (v : ℝ) : (l.set i v).getD j 0 = if i = j ∧ j < l.length then v else l.getD j 0 := by
  rw [List.getD_eq_getElem?_getD, List.getD_eq_getElem?_getD, List.getElem?_set]
  by_cases h : i = j
  · subst h
    by_cases h2 : i < l.length
    · simp [h2]
    · simp [h2]
  · simp [h]

theorem inner_len (x : ℝ) (beta : List ℝ) (n j : ℕ) : (casteljauInner x beta n j).length = beta.length := by
  unfold casteljauInner
  generalize n - j = m
  induction m with
  | zero => rfl
  | succ m ih => rw [List.range_succ, List.foldl_append]; simpa using ih

theorem inner_get (x : ℝ) (beta : List ℝ) (n j k : ℕ) (h : n - j < beta.length ∨ n - j = 0) :
    (casteljauInner x beta n j).getD k 0
      = if k < n - j then beta.getD k 0 * (1 - x) + beta.getD (k + 1) 0 * x else beta.getD k 0 := by
  unfold casteljauInner
  generalize n - j = m at h
  induction m generalizing k with
  | zero => simp
  | succ m ih =>
    rcases h with h | h
    · have hl : ((List.range m).foldl (fun beta k => beta.set k (beta.getD k 0 * (1 - x) + beta.getD (k + 1) 0 * x)) beta).length
          = beta.length := by
        have := inner_len x beta m 0
        unfold casteljauInner at this
        simpa using this
      rw [List.range_succ, List.foldl_append]
      simp only [List.foldl_cons, List.foldl_nil]
      rw [getD_set, hl, ih m (Or.inl (by omega)), ih (m + 1) (Or.inl (by omega)), ih k (Or.inl (by omega)),
        if_neg (Nat.lt_irrefl m), if_neg (by omega : ¬ m + 1 < m)]
      by_cases hk : m = k
      · subst hk
        rw [if_pos ⟨rfl, by omega⟩, if_pos (by omega)]
      · rw [if_neg (by tauto)]
        by_cases hk2 : k < m
        · rw [if_pos hk2, if_pos (by omega)]
        · rw [if_neg hk2, if_neg (by omega)]
    · omega

theorem outer_get (x : ℝ) (coeffs : List ℝ) (r : ℕ) (hr : r < coeffs.length) :
    ((List.range' 1 r).foldl (fun beta j => casteljauInner x beta coeffs.length j) coeffs).length = coeffs.length ∧
    ∀ k, k + r < coeffs.length →
      ((List.range' 1 r).foldl (fun beta j => casteljauInner x beta coeffs.length j) coeffs).getD k 0
        = bz r (fun i => coeffs.getD (k + i) 0) x := by
  induction r with
  | zero => exact ⟨rfl, fun k _ => by simp [bz]⟩
  | succ r ih =>
    obtain ⟨ihl, ihv⟩ := ih (by omega)
    rw [List.range'_1_concat, List.foldl_append]
    simp only [List.foldl_cons, List.foldl_nil]
    refine ⟨by rw [inner_len, ihl], ?_⟩
    intro k hk
    rw [inner_get _ _ _ _ _ (by rw [ihl]; omega), if_pos (by omega), ihv k (by omega), ihv (k + 1) (by omega), bz]
    congr 2
    refine bz_congr _ _ _ _ fun i _ => ?_
    rw [show k + 1 + i = k + (i + 1) by omega]

/-- The loops compute de Casteljau's recursion. -/
theorem deCasteljau_eq (x : ℝ) (coeffs : List ℝ) (h : coeffs ≠ []) :
    deCasteljau x coeffs = .ok (bz (coeffs.length - 1) (fun k => coeffs.getD k 0) x) := by
  have hl : 0 < coeffs.length := List.length_pos_iff.2 h
  unfold deCasteljau
  simp only
  rw [if_neg (by omega)]
  congr 1
  by_cases h1 : coeffs.length = 1
  · rw [if_pos h1, h1]
    simp [bz, getD_set, h1]
  · rw [if_neg h1, (outer_get x coeffs (coeffs.length - 1) (by omega)).2 0 (by omega)]
    refine bz_congr _ _ _ _ fun i _ => ?_
    rw [Nat.zero_add]

theorem int_inner (coeffs r : List ℝ) (j m : ℕ) (hj : j < r.length) :
    ((List.range m).foldl (fun r k => r.set j (r.getD j 0 + coeffs.getD k 0)) r).length = r.length ∧
    ∀ i, ((List.range m).foldl (fun r k => r.set j (r.getD j 0 + coeffs.getD k 0)) r).getD i 0
      = if i = j then r.getD j 0 + ∑ k ∈ Finset.range m, coeffs.getD k 0 else r.getD i 0 := by
  induction m with
  | zero =>
    refine ⟨rfl, fun i => ?_⟩
    by_cases h : i = j
    · simp [h]
    · simp [h]
  | succ m ih =>
    obtain ⟨ihl, ihv⟩ := ih
    rw [List.range_succ, List.foldl_append]
    simp only [List.foldl_cons, List.foldl_nil]
    refine ⟨by rw [List.length_set, ihl], fun i => ?_⟩
    rw [getD_set, ihl, ihv j, if_pos rfl, ihv i, Finset.sum_range_succ]
    by_cases h : i = j
    · subst h
      rw [if_pos ⟨rfl, hj⟩, if_pos rfl]
      ring
    · rw [if_neg (fun hc => h hc.1.symm), if_neg h, if_neg h]

theorem int_outer (coeffs : List ℝ) (m : ℕ) (hm : m ≤ coeffs.length) :
    ((List.range' 1 m).foldl
      (fun r j => (List.range j).foldl (fun r k => r.set j (r.getD j 0 + coeffs.getD k 0)) r)
      (List.replicate (coeffs.length + 1) 0)).length = coeffs.length + 1 ∧
    ∀ i, ((List.range' 1 m).foldl
      (fun r j => (List.range j).foldl (fun r k => r.set j (r.getD j 0 + coeffs.getD k 0)) r)
      (List.replicate (coeffs.length + 1) 0)).getD i 0
      = if i ≤ m then ∑ k ∈ Finset.range i, coeffs.getD k 0 else 0 := by
  induction m with
  | zero =>
    refine ⟨by simp, fun i => ?_⟩
    have hz : (List.replicate (coeffs.length + 1) (0 : ℝ)).getD i 0 = 0 := by
      rw [List.getD_eq_getElem?_getD, List.getElem?_replicate]
      split <;> rfl
    simp only [List.range'_zero, List.foldl_nil]
    rw [hz]
    by_cases h : i ≤ 0
    · rw [if_pos h, Nat.le_zero.1 h]; simp
    · rw [if_neg h]
  | succ m ih =>
    obtain ⟨ihl, ihv⟩ := ih (by omega)
    rw [List.range'_1_concat, List.foldl_append]
    simp only [List.foldl_cons, List.foldl_nil]
    obtain ⟨jl, jv⟩ := int_inner coeffs _ (1 + m) (1 + m) (by rw [ihl]; omega)
    refine ⟨by rw [jl, ihl], fun i => ?_⟩
    rw [jv i, ihv (1 + m), if_neg (by omega : ¬ 1 + m ≤ m), ihv i]
    by_cases h : i = 1 + m
    · rw [if_pos h, if_pos (by omega), h]
      ring
    · rw [if_neg h]
      by_cases h2 : i ≤ m
      · rw [if_pos h2, if_pos (by omega)]
      · rw [if_neg h2, if_neg (by omega)]

theorem coeffsInt_len (coeffs : List ℝ) : (coeffsInt coeffs).length = coeffs.length + 1 := by
  unfold coeffsInt coeffsIntLoop
  rw [List.length_map, (int_outer coeffs coeffs.length (Nat.le_refl _)).1]

theorem coeffsInt_get (coeffs : List ℝ) (i : ℕ) (hi : i ≤ coeffs.length) :
    (coeffsInt coeffs).getD i 0 = (∑ k ∈ Finset.range i, coeffs.getD k 0) / coeffs.length := by
  have hl := coeffsInt_len coeffs
  have h := (int_outer coeffs coeffs.length (Nat.le_refl _)).2 i
  rw [if_pos hi] at h
  have hl2 := (int_outer coeffs coeffs.length (Nat.le_refl _)).1
  rw [List.getD_eq_getElem _ _ (by omega)] at h ⊢
  unfold coeffsInt coeffsIntLoop
  rw [List.getElem_map, h]

/-! ### derivative -/

theorem bz_hasDeriv (n : ℕ) (c : ℕ → ℝ) (x : ℝ) :
    HasDerivAt (bz (n + 1) c) ((n + 1) * bz n (fun k => c (k + 1) - c k) x) x := by
  have hx := hasDerivAt_id x
  have h1x : HasDerivAt (fun x : ℝ => 1 - x) (-1) x := by simpa using hx.const_sub 1
  induction n generalizing c with
  | zero =>
    have h := (h1x.const_mul (c 0)).add (hx.const_mul (c 1))
    refine (h.congr_deriv ?_)
    simp [bz]
    ring
  | succ n ih =>
    have h := ((ih c).mul h1x).add ((ih (fun k => c (k + 1))).mul hx)
    refine h.congr_deriv ?_
    rw [bz_sub, bz_sub, bz_sub]
    simp only [bz, id_eq]
    push_cast
    ring

theorem bz_continuous (n : ℕ) (c : ℕ → ℝ) : Continuous (bz n c) := by
  induction n generalizing c with
  | zero => exact continuous_const
  | succ n ih =>
    exact ((ih c).mul (continuous_const.sub continuous_id)).add ((ih _).mul continuous_id)

end Zfit.Num
