import Verif.BinPdf.IntModel
import Verif.Binned.FillProps
import Mathlib.Algebra.BigOperators.Intervals
import Mathlib.Algebra.Order.BigOperators.Group.List
import Mathlib.Data.List.GetD
import Mathlib.Tactic.Linarith
import Mathlib.Tactic.Ring
import Mathlib.Tactic.FieldSimp

namespace Zfit.BinPdf

open Zfit Zfit.Bin

/-! ## Specification -/

/-- The fraction of the `k`-th bin that is between `lower` and `upper`. -/
def coverage (edges : List Rat) (lower upper : Rat) (k : Nat) : Rat :=
  max 0 (min upper (edges.getD (k + 1) 0) - max lower (edges.getD k 0)) / (edges.getD (k + 1) 0 - edges.getD k 0)

/-- A range that has a point in common with the binning. -/
def Meets (edges : List Rat) (l : Rat × Rat) : Prop :=
  l.1 ≤ l.2 ∧ l.1 ≤ edges.getLastD 0 ∧ edges.headD 0 ≤ l.2

/-- The counts, each times the covered fraction of its bin. -/
def coveredSum (counts : NDArr) (edges : List (List Rat)) (limits : List (Rat × Rat)) : Rat :=
  ((allIdx (edges.map (fun e => e.length - 1))).map (fun idx =>
    counts.get idx * (((edges.zip limits).zip idx).map (fun p => coverage p.1.1 p.1.2.1 p.1.2.2 p.2)).prod)).sum

/-! ## One axis -/

theorem getD_lt {edges : List Rat} (h : GoodEdges edges) {i j : Nat} (hij : i < j) (hj : j < edges.length) :
    edges.getD i 0 < edges.getD j 0 := by
  rw [List.getD_eq_getElem _ _ (by omega), List.getD_eq_getElem _ _ hj]
  exact List.pairwise_iff_getElem.1 h.1 i j (by omega) hj hij

theorem getD_le {edges : List Rat} (h : GoodEdges edges) {i j : Nat} (hij : i ≤ j) (hj : j < edges.length) :
    edges.getD i 0 ≤ edges.getD j 0 := by
  rcases Nat.lt_or_eq_of_le hij with h' | h'
  · exact le_of_lt (getD_lt h h' hj)
  · rw [h']

theorem headD_eq (edges : List Rat) : edges.headD 0 = edges.getD 0 0 := by cases edges <;> rfl

theorem getLastD_eq (edges : List Rat) (h : 2 ≤ edges.length) : edges.getLastD 0 = edges.getD (edges.length - 1) 0 := by
  rw [List.getD_eq_getElem _ _ (by omega), List.getLastD_eq_getLast?, List.getLast?_eq_getElem?,
    List.getElem?_eq_getElem (by omega)]
  rfl

theorem takeWhile_getD (p : Rat → Bool) (l : List Rat) :
    (∀ k, k < (l.takeWhile p).length → p (l.getD k 0) = true) ∧
    ((l.takeWhile p).length < l.length → p (l.getD (l.takeWhile p).length 0) = false) ∧
    (l.takeWhile p).length ≤ l.length := by
  induction l with
  | nil => simp
  | cons a l ih =>
    cases hp : p a with
    | false => simp [List.takeWhile_cons, hp]
    | true =>
      obtain ⟨h1, h2, h3⟩ := ih
      simp only [List.takeWhile_cons, hp, if_true, List.length_cons, Nat.add_lt_add_iff_right, List.getD_cons_succ]
      refine ⟨?_, h2, by omega⟩
      intro k hk
      cases k with
      | zero => simpa using hp
      | succ k => simpa using h1 k (by omega)

theorem extFindBin_spec {edges : List Rat} (h : GoodEdges edges) (x : Rat) :
    extFindBin edges x + 2 ≤ edges.length ∧
    (0 < extFindBin edges x → edges.getD (extFindBin edges x) 0 ≤ x) ∧
    (extFindBin edges x + 2 < edges.length → x < edges.getD (extFindBin edges x + 1) 0) := by
  have h2 := h.2
  have hlen : edges.tail.dropLast.length = edges.length - 2 := by simp; omega
  have hget : ∀ k, k < edges.tail.dropLast.length → edges.tail.dropLast.getD k 0 = edges.getD (k + 1) 0 := by
    intro k hk
    rw [List.getD_eq_getElem _ _ hk, List.getElem_dropLast, List.getElem_tail, List.getD_eq_getElem _ _ (by omega)]
  obtain ⟨t1, t2, t3⟩ := takeWhile_getD (fun e => decide (e ≤ x)) edges.tail.dropLast
  unfold extFindBin
  refine ⟨by omega, ?_, ?_⟩
  · intro hpos
    have hx := t1 _ (Nat.sub_one_lt_of_lt hpos)
    rw [hget _ (by omega), Nat.sub_add_cancel hpos] at hx
    simpa using hx
  · intro hlt
    have hx := t2 (by omega)
    rw [hget _ (by omega)] at hx
    simpa using hx

/-- The widths in the cut are the covered parts of the bins, and the bins outside the cut are not covered. -/
theorem coverage_eq {edges : List Rat} (h : GoodEdges edges) {lower upper : Rat} (hm : Meets edges (lower, upper)) :
    let c := cutAxis edges lower upper
    c.lowerBin + c.size + 1 ≤ edges.length ∧
    (∀ k, k < c.size → width c.scaled k / width c.unscaled k = coverage edges lower upper (c.lowerBin + k)) ∧
    (∀ j, j + 1 < edges.length → (j < c.lowerBin ∨ c.lowerBin + c.size ≤ j) → coverage edges lower upper j = 0) := by
  obtain ⟨hm1, hm2, hm3⟩ := hm
  simp only at hm1 hm2 hm3
  have h2 := h.2
  rw [getLastD_eq edges h2] at hm2
  rw [headD_eq] at hm3
  set e := fun k => edges.getD k 0 with he
  set n := edges.length - 1 with hn
  have emono : ∀ {i j}, i ≤ j → j ≤ n → e i ≤ e j := fun hij hj => getD_le h hij (by omega)
  have esmono : ∀ {i j}, i < j → j ≤ n → e i < e j := fun hij hj => getD_lt h hij (by omega)
  change lower ≤ e n at hm2
  change e 0 ≤ upper at hm3
  -- the quantities of the cut
  set lo := max lower (e 0) with hlo
  set hi := min upper (e n) with hhi
  set lb := extFindBin edges lo with hlb
  set ub := extFindBin edges hi + 1 with hub
  obtain ⟨l1, l2, l3⟩ := extFindBin_spec h lo
  obtain ⟨u1, u2, u3⟩ := extFindBin_spec h hi
  rw [← hlb] at l1 l2 l3
  have hube : extFindBin edges hi = ub - 1 := by omega
  rw [hube] at u1 u2 u3
  have hubp : 0 < ub := by omega
  have hub1 : ub - 1 + 1 = ub := by omega
  rw [hub1] at u3
  change 0 < lb → e lb ≤ lo at l2
  change lb + 2 < edges.length → lo < e (lb + 1) at l3
  change 0 < ub - 1 → e (ub - 1) ≤ hi at u2
  change ub - 1 + 2 < edges.length → hi < e ub at u3
  have hlohi : lo ≤ hi := by
    rw [hlo, hhi]
    exact le_min (max_le hm1 hm3) (max_le hm2 (emono (Nat.zero_le _) (le_refl _)))
  have hlbub : lb < ub := by
    by_contra hc
    have h1 : e lb ≤ lo := l2 (by omega)
    have h3 : hi < e ub := u3 (by omega)
    have h4 : e ub ≤ e lb := emono (by omega) (by omega)
    linarith
  have hcut : cutAxis edges lower upper = ⟨lb, ub - lb, (((edges.drop lb).take (ub - lb + 1)).set 0 lo).set (ub - lb) hi,
      (edges.drop lb).take (ub - lb + 1)⟩ := by
    unfold cutAxis
    simp only [headD_eq, getLastD_eq edges h2]
    rfl
  simp only [hcut]
  have hslen : ((edges.drop lb).take (ub - lb + 1)).length = ub - lb + 1 := by
    rw [List.length_take, List.length_drop]
    omega
  have hs : ∀ k, k ≤ ub - lb → ((edges.drop lb).take (ub - lb + 1)).getD k 0 = e (lb + k) := by
    intro k hk
    rw [List.getD_eq_getElem _ _ (by omega), List.getElem_take, List.getElem_drop]
    exact (List.getD_eq_getElem _ _ (by omega)).symm
  have hscaled : ∀ k, k ≤ ub - lb → ((((edges.drop lb).take (ub - lb + 1)).set 0 lo).set (ub - lb) hi).getD k 0 =
      if k = ub - lb then hi else if k = 0 then lo else e (lb + k) := by
    intro k hk
    rw [List.getD_eq_getElem _ _ (by simp only [List.length_set]; omega), List.getElem_set, List.getElem_set]
    by_cases hk1 : k = ub - lb
    · rw [if_pos hk1.symm, if_pos hk1]
    · rw [if_neg (fun h => hk1 h.symm), if_neg hk1]
      by_cases hk0 : k = 0
      · rw [if_pos hk0.symm, if_pos hk0]
      · rw [if_neg (fun h => hk0 h.symm), if_neg hk0, ← hs k hk, List.getD_eq_getElem _ _ (by omega)]
  -- the bounds of the covered parts
  have hlow : ∀ j, lb ≤ j → j < ub → max lower (e j) = if j = lb then lo else e j := by
    intro j h1 h3
    split
    · rename_i hj
      subst hj
      rcases Nat.eq_zero_or_pos lb with h0 | h0
      · rw [h0, hlo]
      · have h5 := l2 h0
        have h6 : e 0 < e lb := esmono h0 (by omega)
        have h7 : lo = lower := by
          rcases max_choice lower (e 0) with h8 | h8
          · rw [hlo, h8]
          · rw [hlo, h8] at h5
            linarith
        rw [h7] at h5 ⊢
        exact max_eq_left h5
    · have h5 := l3 (by omega)
      have h6 : e (lb + 1) ≤ e j := emono (by omega) (by omega)
      have h7 : lower ≤ lo := le_max_left _ _
      exact max_eq_right (by linarith)
  have hup : ∀ j, lb ≤ j → j < ub → min upper (e (j + 1)) = if j + 1 = ub then hi else e (j + 1) := by
    intro j h1 h3
    split
    · rename_i hj
      rw [hj]
      rcases Nat.lt_or_ge ub n with h0 | h0
      · have h5 := u3 (by omega)
        have h6 : e ub ≤ e n := emono (by omega) (le_refl _)
        have h7 : hi = upper := by
          rcases min_choice upper (e n) with h8 | h8
          · rw [hhi, h8]
          · rw [hhi, h8] at h5
            linarith
        rw [h7] at h5 ⊢
        exact min_eq_left h5.le
      · have : ub = n := by omega
        rw [this, hhi]
    · have h5 := u2 (by omega)
      have h6 : e (j + 1) ≤ e (ub - 1) := emono (by omega) (by omega)
      have h7 : hi ≤ upper := min_le_left _ _
      exact min_eq_right (by linarith)
  refine ⟨by omega, ?_, ?_⟩
  · intro k hk
    unfold width coverage
    rw [hscaled (k + 1) (by omega), hscaled k (by omega), hs (k + 1) (by omega), hs k (by omega)]
    have e1 : edges.getD (lb + k + 1) 0 = e (lb + k + 1) := rfl
    have e2 : edges.getD (lb + k) 0 = e (lb + k) := rfl
    rw [e1, e2, hlow (lb + k) (by omega) (by omega), hup (lb + k) (by omega) (by omega), if_neg (show k ≠ ub - lb by omega)]
    have c1 : (k + 1 = ub - lb) ↔ (lb + k + 1 = ub) := by omega
    have c2 : (k = 0) ↔ (lb + k = lb) := by omega
    rw [show lb + (k + 1) = lb + k + 1 by omega]
    simp only [c1, c2, Nat.succ_ne_zero, if_false]
    have hnn : (if lb + k = lb then lo else e (lb + k)) ≤ (if lb + k + 1 = ub then hi else e (lb + k + 1)) := by
      rw [← hlow (lb + k) (by omega) (by omega), ← hup (lb + k) (by omega) (by omega)]
      have a1 : e (lb + k) ≤ e (lb + k + 1) := emono (by omega) (by omega)
      have a2 : lower ≤ e (lb + k + 1) := by
        rcases Nat.lt_or_ge (lb + 2) edges.length with h0 | h0
        · have h5 := l3 h0
          have h6 : e (lb + 1) ≤ e (lb + k + 1) := emono (by omega) (by omega)
          have h7 : lower ≤ lo := le_max_left _ _
          linarith
        · have : lb + k + 1 = n := by omega
          rw [this]
          exact hm2
      have a3 : e (lb + k) ≤ upper := by
        rcases Nat.eq_zero_or_pos (ub - 1) with h0 | h0
        · have : lb + k = 0 := by omega
          rw [this]
          exact hm3
        · have h5 := u2 h0
          have h6 : e (lb + k) ≤ e (ub - 1) := emono (by omega) (by omega)
          have h7 : hi ≤ upper := min_le_left _ _
          linarith
      exact max_le (le_min hm1 a2) (le_min a3 a1)
    rw [max_eq_right (sub_nonneg.2 hnn)]
  · intro j hj hout
    unfold coverage
    have : min upper (e (j + 1)) - max lower (e j) ≤ 0 := by
      rcases hout with h0 | h0
      · have h5 := l2 (by omega)
        have h6 : e (j + 1) ≤ e lb := emono (by omega) (by omega)
        have h8 : e 0 < e lb := esmono (by omega) (by omega)
        have h7 : lo = lower := by
          rcases max_choice lower (e 0) with h9 | h9
          · rw [hlo, h9]
          · rw [hlo, h9] at h5
            linarith
        have h10 : min upper (e (j + 1)) ≤ e (j + 1) := min_le_right _ _
        have h11 : lower ≤ max lower (e j) := le_max_left _ _
        linarith
      · have hlt : ub ≤ j := by omega
        have h5 := u3 (by omega)
        have h6 : e ub ≤ e j := emono (by omega) (by omega)
        have h8 : e ub ≤ e n := emono (by omega) (le_refl _)
        have h7 : hi = upper := by
          rcases min_choice upper (e n) with h9 | h9
          · rw [hhi, h9]
          · rw [hhi, h9] at h5
            linarith
        have h10 : min upper (e (j + 1)) ≤ upper := min_le_left _ _
        have h11 : e j ≤ max lower (e j) := le_max_right _ _
        linarith
    change max 0 (min upper (e (j + 1)) - max lower (e j)) / _ = 0
    rw [max_eq_left this, zero_div]

theorem list_range_sum (n : Nat) (f : Nat → Rat) : ((List.range n).map f).sum = ∑ k ∈ Finset.range n, f k := by
  induction n with
  | zero => simp
  | succ n ih => rw [List.range_succ, List.map_append, List.sum_append, ih, Finset.sum_range_succ]; simp

/-- Summing over the cut of one axis is summing over all its bins with the covered fractions. -/
theorem cut_sum {edges : List Rat} (h : GoodEdges edges) {lower upper : Rat} (hm : Meets edges (lower, upper))
    (g : Nat → Rat) :
    ((List.range (cutAxis edges lower upper).size).map (fun k => g ((cutAxis edges lower upper).lowerBin + k) *
      (width (cutAxis edges lower upper).scaled k / width (cutAxis edges lower upper).unscaled k))).sum =
    ((List.range (edges.length - 1)).map (fun j => g j * coverage edges lower upper j)).sum := by
  obtain ⟨h1, h2, h3⟩ := coverage_eq h hm
  set c := cutAxis edges lower upper
  rw [list_range_sum, list_range_sum]
  rw [show ∑ k ∈ Finset.range c.size, g (c.lowerBin + k) * (width c.scaled k / width c.unscaled k) =
      ∑ k ∈ Finset.range c.size, g (c.lowerBin + k) * coverage edges lower upper (c.lowerBin + k) from
    Finset.sum_congr rfl (fun k hk => by rw [h2 k (Finset.mem_range.1 hk)])]
  have : ∑ k ∈ Finset.range c.size, g (c.lowerBin + k) * coverage edges lower upper (c.lowerBin + k) =
      ∑ j ∈ Finset.Ico c.lowerBin (c.lowerBin + c.size), g j * coverage edges lower upper j := by
    rw [Finset.sum_Ico_eq_sum_range, Nat.add_sub_cancel_left]
  rw [this]
  apply Finset.sum_subset
  · intro j hj
    rw [Finset.mem_Ico] at hj
    rw [Finset.mem_range]
    omega
  · intro j hj hnot
    rw [Finset.mem_range] at hj
    rw [Finset.mem_Ico, not_and_or] at hnot
    rw [h3 j (by omega) (by omega), mul_zero]

theorem flatMap_sum (n : Nat) (rest : List (List Nat)) (f : List Nat → Rat) :
    (((List.range n).flatMap (fun i => rest.map (i :: ·))).map f).sum =
      ((List.range n).map (fun i => (rest.map (fun idx => f (i :: idx))).sum)).sum := by
  induction n with
  | zero => simp
  | succ n ih =>
    rw [List.range_succ, List.flatMap_append, List.map_append, List.sum_append, ih, List.map_append, List.sum_append]
    simp [List.map_map, Function.comp_def]

theorem sum_map_mul_left' (c : Rat) (l : List (List Nat)) (f : List Nat → Rat) :
    (l.map (fun i => c * f i)).sum = c * (l.map f).sum := by
  induction l with
  | nil => simp
  | cons a l ih => simp [ih, mul_add]

theorem rect_core (axes : List (List Rat × (Rat × Rat))) (hall : ∀ a ∈ axes, GoodEdges a.1 ∧ Meets a.1 a.2)
    (g : List Nat → Rat) :
    ((allIdx (axes.map (fun p => (cutAxis p.1 p.2.1 p.2.2).size))).map (fun idx =>
      g (((axes.map (fun p => cutAxis p.1 p.2.1 p.2.2)).zip idx).map (fun p => p.1.lowerBin + p.2)) *
        ((((axes.map (fun p => cutAxis p.1 p.2.1 p.2.2)).zip idx).map (fun p => width p.1.scaled p.2)).prod /
          (((axes.map (fun p => cutAxis p.1 p.2.1 p.2.2)).zip idx).map (fun p => width p.1.unscaled p.2)).prod))).sum =
    ((allIdx (axes.map (fun p => p.1.length - 1))).map (fun idx =>
      g idx * ((axes.zip idx).map (fun p => coverage p.1.1 p.1.2.1 p.1.2.2 p.2)).prod)).sum := by
  induction axes generalizing g with
  | nil => simp [allIdx]
  | cons a axes ih =>
    have ih' := fun g => ih (fun b hb => hall b (List.mem_cons_of_mem _ hb)) g
    obtain ⟨ha1, ha2⟩ := hall a List.mem_cons_self
    simp only [List.map_cons, allIdx, flatMap_sum, List.zip_cons_cons, List.prod_cons]
    set c := cutAxis a.1 a.2.1 a.2.2 with hc
    have e1 : ∀ i : Nat, ((allIdx (axes.map (fun p => (cutAxis p.1 p.2.1 p.2.2).size))).map (fun idx =>
        g ((c.lowerBin + i) :: ((axes.map (fun p => cutAxis p.1 p.2.1 p.2.2)).zip idx).map (fun p => p.1.lowerBin + p.2)) *
        (width c.scaled i * (((axes.map (fun p => cutAxis p.1 p.2.1 p.2.2)).zip idx).map (fun p => width p.1.scaled p.2)).prod /
          (width c.unscaled i * (((axes.map (fun p => cutAxis p.1 p.2.1 p.2.2)).zip idx).map (fun p => width p.1.unscaled p.2)).prod)))).sum =
        ((allIdx (axes.map (fun p => p.1.length - 1))).map (fun idx =>
          g ((c.lowerBin + i) :: idx) * ((axes.zip idx).map (fun p => coverage p.1.1 p.1.2.1 p.1.2.2 p.2)).prod)).sum *
        (width c.scaled i / width c.unscaled i) := by
      intro i
      rw [← ih' (fun idx => g ((c.lowerBin + i) :: idx)), mul_comm _ (width c.scaled i / width c.unscaled i),
        ← sum_map_mul_left']
      congr 1
      apply List.map_congr_left
      intro idx _
      rw [mul_div_mul_comm]
      ring
    simp only [e1]
    rw [cut_sum ha1 (lower := a.2.1) (upper := a.2.2) ha2 (fun j => ((allIdx (axes.map (fun p => p.1.length - 1))).map (fun idx =>
          g (j :: idx) * ((axes.zip idx).map (fun p => coverage p.1.1 p.1.2.1 p.1.2.2 p.2)).prod)).sum)]
    congr 1
    apply List.map_congr_left
    intro i _
    rw [mul_comm, ← sum_map_mul_left']
    congr 1
    apply List.map_congr_left
    intro idx _
    ring

/-! ## C35 -/

/-- C35: for any number of axes with any binning, and limits that have at least a point in common with it, the integral
is the sum over all bins of their content times the covered fraction. Missing from the full claim: the cases of
`binned_integral_outside_violated`. -/
theorem binned_integral_partial (counts : NDArr) (edges : List (List Rat)) (limits : List (Rat × Rat))
    (hlen : limits.length = edges.length) (hall : ∀ a ∈ edges.zip limits, GoodEdges a.1 ∧ Meets a.1 a.2) :
    rectIntegration counts edges limits = coveredSum counts edges limits := by
  have h := rect_core (edges.zip limits) hall counts.get
  have hfst : (edges.zip limits).map (fun p => p.1.length - 1) = edges.map (fun e => e.length - 1) := by
    have : (edges.zip limits).map (fun p => p.1.length - 1) = ((edges.zip limits).map Prod.fst).map (fun e => e.length - 1) := by
      simp
    rw [this, List.map_fst_zip (by omega)]
  unfold rectIntegration coveredSum
  rw [hfst] at h
  simp only [List.map_map] at h ⊢
  exact h

theorem coverage_full {edges : List Rat} (h : GoodEdges edges) {lower upper : Rat} (hl : lower ≤ edges.headD 0)
    (hu : edges.getLastD 0 ≤ upper) {k : Nat} (hk : k + 1 < edges.length) : coverage edges lower upper k = 1 := by
  rw [headD_eq] at hl
  rw [getLastD_eq edges h.2] at hu
  have h1 : edges.getD 0 0 ≤ edges.getD k 0 := getD_le h (Nat.zero_le _) (by omega)
  have h2 : edges.getD (k + 1) 0 ≤ edges.getD (edges.length - 1) 0 := getD_le h (by omega) (by omega)
  have h3 : edges.getD k 0 < edges.getD (k + 1) 0 := getD_lt h (by omega) hk
  unfold coverage
  rw [min_eq_right (show edges.getD (k + 1) 0 ≤ upper by linarith),
    max_eq_right (show lower ≤ edges.getD k 0 by linarith),
    max_eq_right (show 0 ≤ edges.getD (k + 1) 0 - edges.getD k 0 by linarith)]
  exact div_self (by linarith)

/-- C35: over the whole range of the binning, or more, the integral is the sum of all contents. -/
theorem binned_integral_whole (counts : NDArr) (edges : List (List Rat)) (limits : List (Rat × Rat))
    (hlen : limits.length = edges.length) (hshape : counts.shape = edges.map (fun e => e.length - 1))
    (hall : ∀ a ∈ edges.zip limits, GoodEdges a.1 ∧ a.2.1 ≤ a.1.headD 0 ∧ a.1.getLastD 0 ≤ a.2.2) :
    rectIntegration counts edges limits = counts.total := by
  rw [binned_integral_partial counts edges limits hlen]
  · unfold coveredSum NDArr.total
    rw [hshape]
    congr 1
    apply List.map_congr_left
    intro idx hidx
    have hprod : (((edges.zip limits).zip idx).map (fun p => coverage p.1.1 p.1.2.1 p.1.2.2 p.2)).prod = 1 := by
      apply List.prod_eq_one
      intro v hv
      obtain ⟨⟨a, k⟩, hak, rfl⟩ := List.mem_map.1 hv
      obtain ⟨i, hi, hget⟩ := List.getElem_of_mem hak
      rw [List.getElem_zip] at hget
      have ha : a = (edges.zip limits)[i]'(by simp at hi ⊢; omega) := by rw [Prod.mk.injEq] at hget; exact hget.1.symm
      have hk : k = idx[i]'(by simp at hi ⊢; omega) := by rw [Prod.mk.injEq] at hget; exact hget.2.symm
      have hmem : a ∈ edges.zip limits := ha ▸ List.getElem_mem _
      have hlt := (List.forall₂_iff_get.1 (mem_allIdx.1 hidx)).2 i (by simp at hi ⊢; omega) (by simp at hi ⊢; omega)
      obtain ⟨g1, g2, g3⟩ := hall a hmem
      have hedge : (edges[i]'(by simp at hi ⊢; omega)) = a.1 := by rw [ha, List.getElem_zip]
      simp only [List.get_eq_getElem, List.getElem_map, hedge] at hlt
      rw [← hk] at hlt
      exact coverage_full g1 g2 g3 (by omega)
    rw [hprod, mul_one]
  · intro a ha
    obtain ⟨g1, g2, g3⟩ := hall a ha
    have : a.1.headD 0 ≤ a.1.getLastD 0 := by
      rw [headD_eq, getLastD_eq _ g1.2]
      exact getD_le g1 (Nat.zero_le _) (by have := g1.2; omega)
    exact ⟨g1, by linarith, by linarith, by linarith⟩

theorem coverage_split {edges : List Rat} (h : GoodEdges edges) {a b c : Rat} (hab : a ≤ b) (hbc : b ≤ c) {k : Nat}
    (hk : k + 1 < edges.length) : coverage edges a b k + coverage edges b c k = coverage edges a c k := by
  have h3 : edges.getD k 0 < edges.getD (k + 1) 0 := getD_lt h (by omega) hk
  unfold coverage
  rw [← add_div]
  congr 1
  rcases le_total b (edges.getD k 0) with h1 | h1
  · rw [min_eq_left (show b ≤ edges.getD (k + 1) 0 by linarith), max_eq_right (show a ≤ edges.getD k 0 by linarith),
      max_eq_right h1, max_eq_left (show b - edges.getD k 0 ≤ 0 by linarith), zero_add]
  · rcases le_total b (edges.getD (k + 1) 0) with h2 | h2
    · have e1 : max b (edges.getD k 0) = b := max_eq_left h1
      have e2 : min b (edges.getD (k + 1) 0) = b := min_eq_left h2
      have e3 : max a (edges.getD k 0) ≤ b := max_le hab h1
      have e4 : b ≤ min c (edges.getD (k + 1) 0) := le_min hbc h2
      rw [e1, e2, max_eq_right (show 0 ≤ b - max a (edges.getD k 0) by linarith),
        max_eq_right (show 0 ≤ min c (edges.getD (k + 1) 0) - b by linarith),
        max_eq_right (show 0 ≤ min c (edges.getD (k + 1) 0) - max a (edges.getD k 0) by linarith)]
      ring
    · have e1 : min c (edges.getD (k + 1) 0) = edges.getD (k + 1) 0 := min_eq_right (by linarith)
      have e2 : min b (edges.getD (k + 1) 0) = edges.getD (k + 1) 0 := min_eq_right h2
      have e3 : max b (edges.getD k 0) = b := max_eq_left h1
      rw [e1, e2, e3, max_eq_left (show edges.getD (k + 1) 0 - b ≤ 0 by linarith), add_zero]

/-- C35: the integrals over two adjacent ranges, along the first axis of any number of them, add up to the integral over
both. Missing from the full claim: the cases of `binned_integral_outside_violated`. -/
theorem binned_integral_adjacent_partial (counts : NDArr) (e : List Rat) (edges : List (List Rat)) (a b c : Rat)
    (limits : List (Rat × Rat)) (hlen : limits.length = edges.length) (he : GoodEdges e)
    (h1 : Meets e (a, b)) (h2 : Meets e (b, c)) (hall : ∀ a ∈ edges.zip limits, GoodEdges a.1 ∧ Meets a.1 a.2) :
    rectIntegration counts (e :: edges) ((a, b) :: limits) + rectIntegration counts (e :: edges) ((b, c) :: limits) =
      rectIntegration counts (e :: edges) ((a, c) :: limits) := by
  have h3 : Meets e (a, c) := ⟨le_trans h1.1 h2.1, h1.2.1, h2.2.2⟩
  have hmem : ∀ l, Meets e l → ∀ x ∈ (e :: edges).zip (l :: limits), GoodEdges x.1 ∧ Meets x.1 x.2 := by
    intro l hl x hx
    rw [List.zip_cons_cons, List.mem_cons] at hx
    rcases hx with rfl | hx
    · exact ⟨he, hl⟩
    · exact hall x hx
  rw [binned_integral_partial _ _ _ (by simp [hlen]) (hmem _ h1), binned_integral_partial _ _ _ (by simp [hlen]) (hmem _ h2),
    binned_integral_partial _ _ _ (by simp [hlen]) (hmem _ h3)]
  unfold coveredSum
  have key : ∀ (l : List (List Nat)) (F G H : List Nat → Rat), (∀ i ∈ l, F i + G i = H i) →
      (l.map F).sum + (l.map G).sum = (l.map H).sum := by
    intro l F G H hFG
    induction l with
    | nil => simp
    | cons i l ih =>
      simp only [List.map_cons, List.sum_cons]
      rw [← ih (fun j hj => hFG j (List.mem_cons_of_mem _ hj)), ← hFG i List.mem_cons_self]
      ring
  apply key
  intro idx hidx
  rw [mem_allIdx, List.map_cons] at hidx
  cases hidx with
  | @cons k _ rest _ hk hr =>
    simp only [List.zip_cons_cons, List.map_cons, List.prod_cons]
    rw [← coverage_split he h1.1 h2.1 (show k + 1 < e.length by omega)]
    ring

/-- C35 is violated for a range outside the binning: the integral is not zero but, for a range to the right, negative
(here two bins of width 1 with one event each, integrated over [5, 6]), and for one to the left as well. -/
theorem binned_integral_outside_violated :
    rectIntegration ⟨[2], fun _ => 1⟩ [[0, 1, 2]] [(5, 6)] = -3 ∧
    rectIntegration ⟨[2], fun _ => 1⟩ [[0, 1, 2]] [(-6, -5)] = -5 ∧
    coveredSum ⟨[2], fun _ => 1⟩ [[0, 1, 2]] [(5, 6)] = 0 := by decide +kernel

/-- non-vacuity: two axes, limits inside bins -/
example : rectIntegration ⟨[2, 2], fun i => (i.getD 0 0 : Rat) * 2 + i.getD 1 0 + 1⟩ [[0, 1, 3], [0, 2, 4]] [(1/2, 2), (1, 3)] =
    1 * (1/2) * (1/2) + 2 * (1/2) * (1/2) + 3 * (1/2) * (1/2) + 4 * (1/2) * (1/2) := by decide +kernel

example : GoodEdges [0, 1, 3] ∧ Meets [0, 1, 3] (1/2, 2) := by
  refine ⟨⟨by decide +kernel, by decide⟩, ?_, ?_, ?_⟩ <;> decide +kernel

end Zfit.BinPdf
