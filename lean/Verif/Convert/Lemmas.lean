import Verif.Convert.Model
import Verif.BinPdf.IntProps
import Verif.BinPdf.HookProps
import Verif.BinPdf.HistProps
import Verif.BinPdf.PointProps

/-! # Lemmas: bins as boxes, additive functions of boxes -/

namespace Zfit.Convert

open Zfit Zfit.Bin Zfit.BinPdf

/-! ## Specification -/

/-- The box of a bin. -/
def binBox (edges : List (List Rat)) (idx : List Nat) : Box :=
  (edges.zip idx).map (fun q => (q.1.getD q.2 0, q.1.getD (q.2 + 1) 0))

/-- An index of a bin. -/
def IsBin (edges : List (List Rat)) (idx : List Nat) : Prop := idx ∈ allIdx (edges.map (fun e => e.length - 1))

/-- A function of boxes as integrals are: cutting a box in two along any axis adds up. -/
def Additive (I : Box → Rat) : Prop :=
  ∀ (pre post : Box) (a b c : Rat), a ≤ b → b ≤ c →
    I (pre ++ (a, c) :: post) = I (pre ++ (a, b) :: post) + I (pre ++ (b, c) :: post)

/-- The box from the first to the last edge of every axis. -/
def hull (edges : List (List Rat)) : Box := edges.map (fun e => (e.headD 0, e.getLastD 0))

/-! ## Flattening -/

theorem flatMap_length {α : Type*} {f : Nat → List α} {L : Nat} (h : ∀ i, (f i).length = L) (n : Nat) :
    ((List.range n).flatMap f).length = n * L := by
  induction n with
  | zero => simp
  | succ n ih =>
    rw [List.range_succ, List.flatMap_append, List.length_append, ih]
    simp [h, Nat.succ_mul]

theorem flatMap_getElem? {α : Type*} {f : Nat → List α} {L : Nat} (h : ∀ i, (f i).length = L) {n i k : Nat} (hi : i < n)
    (hk : k < L) : ((List.range n).flatMap f)[i * L + k]? = (f i)[k]? := by
  induction n with
  | zero => omega
  | succ n ih =>
    rw [List.range_succ, List.flatMap_append]
    rcases Nat.lt_or_eq_of_le (Nat.lt_succ_iff.1 hi) with h' | h'
    · have h1 : i * L + k < n * L := by
        have : (i + 1) * L ≤ n * L := Nat.mul_le_mul_right L h'
        rw [Nat.succ_mul] at this
        omega
      rw [List.getElem?_append_left (by rw [flatMap_length h]; exact h1)]
      exact ih h'
    · subst h'
      rw [List.getElem?_append_right (by rw [flatMap_length h]; omega), flatMap_length h]
      simp

theorem allIdx_length (shape : List Nat) : (allIdx shape).length = shape.prod := by
  induction shape with
  | nil => rfl
  | cons n rest ih =>
    unfold allIdx
    rw [flatMap_length (L := rest.prod) (fun i => by simp [ih])]
    simp

theorem mem_allIdx_cons {n : Nat} {rest : List Nat} {idx : List Nat} :
    idx ∈ allIdx (n :: rest) ↔ ∃ i, i < n ∧ ∃ r ∈ allIdx rest, idx = i :: r := by
  rw [show allIdx (n :: rest) = (List.range n).flatMap (fun i => (allIdx rest).map (i :: ·)) from rfl]
  simp only [List.mem_flatMap, List.mem_range, List.mem_map]
  constructor
  · rintro ⟨i, hi, r, hr, rfl⟩
    exact ⟨i, hi, r, hr, rfl⟩
  · rintro ⟨i, hi, r, hr, rfl⟩
    exact ⟨i, hi, r, hr, rfl⟩

theorem flatPos_lt (shape : List Nat) (idx : List Nat) (h : idx ∈ allIdx shape) : flatPos shape idx < shape.prod := by
  induction shape generalizing idx with
  | nil => simp only [allIdx, List.mem_singleton] at h; subst h; simp [flatPos]
  | cons n rest ih =>
    obtain ⟨i, hi, r, hr, rfl⟩ := mem_allIdx_cons.1 h
    have h1 := ih r hr
    simp only [flatPos, List.prod_cons]
    have : (i + 1) * rest.prod ≤ n * rest.prod := Nat.mul_le_mul_right _ hi
    rw [Nat.succ_mul] at this
    omega

/-- The index at the position of an index is the index. -/
theorem allIdx_flatPos (shape : List Nat) (idx : List Nat) (h : idx ∈ allIdx shape) :
    (allIdx shape)[flatPos shape idx]? = some idx := by
  induction shape generalizing idx with
  | nil => simp only [allIdx, List.mem_singleton] at h; subst h; simp [flatPos, allIdx]
  | cons n rest ih =>
    obtain ⟨i, hi, r, hr, rfl⟩ := mem_allIdx_cons.1 h
    have h1 := ih r hr
    have h2 := flatPos_lt rest r hr
    simp only [flatPos]
    unfold allIdx
    rw [flatMap_getElem? (L := rest.prod) (fun i => by simp [allIdx_length]) hi h2, List.getElem?_map, h1]
    rfl

theorem reshape_map (shape : List Nat) (f : List Nat → Rat) (idx : List Nat) (h : idx ∈ allIdx shape) :
    reshape shape ((allIdx shape).map f) idx = f idx := by
  unfold reshape
  rw [List.getD_eq_getElem?_getD, List.getElem?_map, allIdx_flatPos shape idx h]
  rfl

theorem allIdx_forall {edges : List (List Rat)} {idx : List Nat} (h : IsBin edges idx) :
    idx.length = edges.length ∧ ∀ q ∈ edges.zip idx, q.2 + 1 < q.1.length := by
  unfold IsBin at h
  induction edges generalizing idx with
  | nil => simp only [List.map_nil, allIdx, List.mem_singleton] at h; subst h; simp
  | cons e edges ih =>
    rw [List.map_cons] at h
    obtain ⟨i, hi, r, hr, rfl⟩ := mem_allIdx_cons.1 h
    obtain ⟨h1, h2⟩ := ih hr
    refine ⟨by simp [h1], ?_⟩
    intro q hq
    rw [List.zip_cons_cons, List.mem_cons] at hq
    rcases hq with rfl | hq
    · simp only; omega
    · exact h2 q hq

/-- The limits integrated are the boxes of the bins, in row-major order. -/
theorem binLimits_eq (edges : List (List Rat)) :
    binLimits edges = (allIdx (edges.map (fun e => e.length - 1))).map (binBox edges) := by
  unfold binLimits meshFlat
  rw [show (edges.map List.dropLast).map List.length = edges.map (fun e => e.length - 1) by simp [Function.comp_def],
    show (edges.map List.tail).map List.length = edges.map (fun e => e.length - 1) by simp [Function.comp_def]]
  rw [List.zip_map', List.map_map]
  apply List.map_congr_left
  intro idx hidx
  obtain ⟨h1, h2⟩ := allIdx_forall hidx
  clear hidx
  unfold binBox
  simp only [Function.comp]
  have hz : ∀ g : List Rat → List Rat, (edges.map g).zip idx = (edges.zip idx).map (fun q => (g q.1, q.2)) := by
    intro g
    rw [List.zip_map_left]
    rfl
  rw [hz, hz, List.map_map, List.map_map, List.zip_map']
  apply List.map_congr_left
  intro q hq
  have h := h2 q hq
  have e1 : q.1.dropLast.getD q.2 0 = q.1.getD q.2 0 := by
    rw [List.getD_eq_getElem _ _ (by simp; omega), List.getElem_dropLast, List.getD_eq_getElem _ _ (by omega)]
  have e2 : q.1.tail.getD q.2 0 = q.1.getD (q.2 + 1) 0 := by
    rw [List.getD_eq_getElem _ _ (by simp; omega), List.getElem_tail, List.getD_eq_getElem _ _ (by omega)]
  simp only [Function.comp]
  rw [e1, e2]

theorem binValues_eq (edges : List (List Rat)) (f : Box → Rat) (idx : List Nat) (h : IsBin edges idx) :
    binValues edges f idx = f (binBox edges idx) := by
  unfold binValues
  rw [binLimits_eq, List.map_map]
  exact reshape_map _ _ _ h


/-! ## Additive functions of boxes -/

theorem Additive.cons {I : Box → Rat} (h : Additive I) (x : Rat × Rat) : Additive (fun b => I (x :: b)) := by
  intro pre post a b c hab hbc
  have := h (x :: pre) post a b c hab hbc
  simpa using this

theorem Additive.self {I : Box → Rat} (h : Additive I) (a : Rat) (post : Box) : I ((a, a) :: post) = 0 := by
  have := h [] post a a a le_rfl le_rfl
  simp only [List.nil_append] at this
  linarith

/-- The pieces between consecutive edges add up. -/
theorem additive_range {I : Box → Rat} (h : Additive I) {e : List Rat} (he : GoodEdges e) (post : Box) {i j : Nat} (hij : i ≤ j)
    (hj : j < e.length) :
    ((List.range (e.length - 1)).map (fun k => I ((e.getD k 0, e.getD (k + 1) 0) :: post) * (if i ≤ k ∧ k < j then 1 else 0))).sum =
      I ((e.getD i 0, e.getD j 0) :: post) := by
  rw [list_range_sum]
  induction j with
  | zero =>
    obtain rfl : i = 0 := by omega
    rw [h.self, Finset.sum_eq_zero]
    intro k _
    simp
  | succ j ih =>
    rcases Nat.lt_or_eq_of_le hij with h' | h'
    · have h1 := ih (by omega) (by omega)
      have h2 := h [] post _ _ _ (getD_le he (show i ≤ j by omega) (by omega)) (getD_le he (show j ≤ j + 1 by omega) hj)
      simp only [List.nil_append] at h2
      rw [h2, ← h1]
      have h3 : ∑ k ∈ Finset.range (e.length - 1), I ((e.getD k 0, e.getD (k + 1) 0) :: post) * (if k = j then 1 else 0) =
          I ((e.getD j 0, e.getD (j + 1) 0) :: post) := by
        rw [Finset.sum_eq_single j]
        · simp
        · intro k _ hk; simp [hk]
        · intro hk; exact absurd (Finset.mem_range.2 (by omega)) hk
      rw [← h3, ← Finset.sum_add_distrib]
      apply Finset.sum_congr rfl
      intro k _
      rw [← mul_add]
      congr 1
      rcases lt_trichotomy k j with hk | hk | hk
      · rw [if_neg (show ¬ k = j by omega), add_zero]
        by_cases hik : i ≤ k
        · rw [if_pos ⟨hik, by omega⟩, if_pos ⟨hik, hk⟩]
        · rw [if_neg (by omega), if_neg (by omega)]
      · subst hk
        rw [if_pos ⟨by omega, by omega⟩, if_neg (by omega), if_pos rfl, zero_add]
      · rw [if_neg (by omega), if_neg (by omega), if_neg (by omega), add_zero]
    · subst h'
      rw [h.self, Finset.sum_eq_zero]
      intro k _
      rw [if_neg (by omega), mul_zero]

/-- The box from the edges `i` to the edges `j`, for axes with `(edges, i, j)`. -/
def alignedBox (axes : List (List Rat × Nat × Nat)) : Box := axes.map (fun a => (a.1.getD a.2.1 0, a.1.getD a.2.2 0))

/-- All axes have a proper binning and ranges of bins. -/
def Aligned (axes : List (List Rat × Nat × Nat)) : Prop := ∀ a ∈ axes, GoodEdges a.1 ∧ a.2.1 ≤ a.2.2 ∧ a.2.2 < a.1.length

/-- The bins in a range of bins add up. -/
theorem additive_aligned {I : Box → Rat} (h : Additive I) (axes : List (List Rat × Nat × Nat)) (ha : Aligned axes) :
    ((allIdx (axes.map (fun a => a.1.length - 1))).map (fun idx => I (binBox (axes.map (·.1)) idx) *
      ((axes.zip idx).map (fun p => if p.1.2.1 ≤ p.2 ∧ p.2 < p.1.2.2 then (1 : Rat) else 0)).prod)).sum = I (alignedBox axes) := by
  induction axes generalizing I with
  | nil => simp [allIdx, binBox, alignedBox]
  | cons a axes ih =>
    have ha1 := ha a (by simp)
    have ha2 : Aligned axes := fun b hb => ha b (by simp [hb])
    have e1 : ((allIdx ((a :: axes).map (fun a => a.1.length - 1))).map (fun idx => I (binBox ((a :: axes).map (·.1)) idx) *
        (((a :: axes).zip idx).map (fun p => if p.1.2.1 ≤ p.2 ∧ p.2 < p.1.2.2 then (1 : Rat) else 0)).prod)).sum =
        ((List.range (a.1.length - 1)).map (fun k => I ((a.1.getD k 0, a.1.getD (k + 1) 0) :: alignedBox axes) *
          (if a.2.1 ≤ k ∧ k < a.2.2 then 1 else 0))).sum := by
      rw [show allIdx ((a :: axes).map (fun a => a.1.length - 1)) = (List.range (a.1.length - 1)).flatMap
        (fun i => (allIdx (axes.map (fun a => a.1.length - 1))).map (i :: ·)) from rfl, flatMap_sum]
      congr 1
      apply List.map_congr_left
      intro k _
      rw [← ih (h.cons _) ha2, mul_comm, ← sum_map_mul_left']
      congr 1
      apply List.map_congr_left
      intro idx _
      simp only [binBox, List.map_cons, List.zip_cons_cons, List.prod_cons]
      ring
    rw [e1, additive_range h ha1.1 _ ha1.2.1 ha1.2.2]
    rfl

/-- The bins add up to the whole. -/
theorem additive_hull {I : Box → Rat} (h : Additive I) (edges : List (List Rat)) (he : ∀ e ∈ edges, GoodEdges e) :
    tot edges (fun idx => I (binBox edges idx)) = I (hull edges) := by
  have h1 := additive_aligned h (edges.map (fun e => (e, 0, e.length - 1))) (by
    intro a ha
    obtain ⟨e, hm, rfl⟩ := List.mem_map.1 ha
    have h2 := (he e hm).2
    exact ⟨he e hm, Nat.zero_le _, by simp only; omega⟩)
  unfold tot
  rw [show hull edges = alignedBox (edges.map (fun e => (e, 0, e.length - 1))) by
    unfold hull alignedBox
    rw [List.map_map]
    apply List.map_congr_left
    intro e hm
    simp only [Function.comp]
    rw [headD_eq, getLastD_eq e (he e hm).2], ← h1, List.map_map, List.map_map]
  simp only [Function.comp_def]
  rw [List.map_id']
  congr 1
  apply List.map_congr_left
  intro idx hidx
  obtain ⟨hl, hb⟩ := allIdx_forall (edges := edges) hidx
  rw [List.prod_eq_one, mul_one]
  intro x hx
  obtain ⟨p, hp, rfl⟩ := List.mem_map.1 hx
  rw [List.zip_map_left] at hp
  obtain ⟨q, hq, rfl⟩ := List.mem_map.1 hp
  have := hb q hq
  simp only [Prod.map]
  rw [if_pos]
  exact ⟨Nat.zero_le _, by simp only [id]; omega⟩

/-- The coverage of whole bins. -/
theorem coverage_aligned {e : List Rat} (he : GoodEdges e) {i j k : Nat} (hij : i ≤ j) (hj : j < e.length) (hk : k + 1 < e.length) :
    coverage e (e.getD i 0) (e.getD j 0) k = if i ≤ k ∧ k < j then 1 else 0 := by
  have hw : e.getD k 0 < e.getD (k + 1) 0 := getD_lt he (by omega) hk
  unfold coverage
  by_cases h1 : i ≤ k
  · have g1 := getD_le he h1 (by omega)
    rw [max_eq_right g1]
    by_cases h2 : k < j
    · have g2 := getD_le he (show k + 1 ≤ j by omega) hj
      rw [min_eq_right g2, if_pos ⟨h1, h2⟩, max_eq_right (by linarith), div_self (by linarith)]
    · have g2 := getD_le he (show j ≤ k by omega) (by omega)
      rw [if_neg (by omega), min_eq_left (by linarith), max_eq_left (by linarith), zero_div]
  · have g1 := getD_le he (show k + 1 ≤ i by omega) (by omega)
    have g2 := getD_le he hij hj
    rw [if_neg (by omega), min_eq_right (by linarith), max_eq_left (show e.getD k 0 ≤ e.getD i 0 by linarith),
      max_eq_left (by linarith), zero_div]

/-- Bounds of aligned limits. -/
theorem meets_aligned {e : List Rat} (he : GoodEdges e) {i j : Nat} (hij : i ≤ j) (hj : j < e.length) :
    Meets e (e.getD i 0, e.getD j 0) := by
  refine ⟨getD_le he hij hj, ?_, ?_⟩
  · rw [getLastD_eq e he.2]
    exact getD_le he (by omega) (by omega)
  · rw [headD_eq]
    exact getD_le he (Nat.zero_le _) hj

/-- The integral of the binned pdf over a range of bins. -/
theorem rect_aligned (c : Arr) (shape : List Nat) (axes : List (List Rat × Nat × Nat)) (ha : Aligned axes) :
    rectIntegration ⟨shape, c⟩ (axes.map (·.1)) (alignedBox axes) =
      ((allIdx (axes.map (fun a => a.1.length - 1))).map (fun idx => c idx *
        ((axes.zip idx).map (fun p => if p.1.2.1 ≤ p.2 ∧ p.2 < p.1.2.2 then (1 : Rat) else 0)).prod)).sum := by
  have hz : (axes.map (·.1)).zip (alignedBox axes) = axes.map (fun a => (a.1, (a.1.getD a.2.1 0, a.1.getD a.2.2 0))) := by
    unfold alignedBox
    rw [List.zip_map']
  rw [binned_integral_partial _ _ _ (by simp [alignedBox])]
  · unfold coveredSum
    rw [hz, List.map_map]
    congr 1
    apply List.map_congr_left
    intro idx hidx
    have hidx' : IsBin (axes.map (·.1)) idx := by
      unfold IsBin
      rw [List.map_map]
      exact hidx
    obtain ⟨hl, hb⟩ := allIdx_forall hidx'
    congr 2
    rw [List.zip_map_left, List.map_map]
    apply List.map_congr_left
    intro p hp
    have hmem : p.1 ∈ axes := (List.of_mem_zip hp).1
    have hk := hb (p.1.1, p.2) (by
      rw [List.zip_map_left]
      exact List.mem_map.2 ⟨p, hp, rfl⟩)
    simp only [Function.comp, Prod.map, id]
    exact coverage_aligned (ha _ hmem).1 (ha _ hmem).2.1 (ha _ hmem).2.2 hk
  · intro a hm
    rw [hz] at hm
    obtain ⟨b, hb, rfl⟩ := List.mem_map.1 hm
    exact ⟨(ha b hb).1, meets_aligned (ha b hb).1 (ha b hb).2.1 (ha b hb).2.2⟩

end Zfit.Convert
