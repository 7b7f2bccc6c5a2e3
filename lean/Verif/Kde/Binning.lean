import Verif.Kde.Props
import Mathlib.Algebra.BigOperators.Intervals
import Mathlib.Algebra.Order.Floor.Semiring
import Mathlib.Data.Rat.Floor

/-! Binning on a grid, as used by the kernel density estimates on a grid (C84). -/

namespace Zfit.Kde

open Zfit

variable {K : Type} [Field K] [LinearOrder K] [IsStrictOrderedRing K] [FloorRing K]

/-- The position of `x` on the grid in units of its spacing. -/
def place (gmin gmax : K) (n : ℕ) (x : K) : K := (x - gmin) / ((gmax - gmin) / (n - 1))

/-- Specification: a function given at the points of the grid, interpolated linearly between the point `k` and the next one at the
fraction `f` of the way. -/
def interpolate (φ : ℕ → K) (k : ℕ) (f : K) : K := (1 - f) * φ k + f * φ (k + 1)

theorem zipWith_maps {A B C D : Type} (l : List A) (f : A → B) (g : A → C) (k : B → C → D) :
    List.zipWith k (l.map f) (l.map g) = l.map fun a => k (f a) (g a) := by
  induction l with
  | nil => rfl
  | cons a l ih => simp [ih]

/-- The value at a grid point as a sum over the events. -/
theorem bin_sum (events : List (K × K)) (gmin gmax : K) (n j : ℕ) :
    binWeighted .linear (events.map (·.1)) gmin gmax n (some (events.map (·.2))) j =
    (events.map fun e => (if ⌊place gmin gmax n e.1⌋ = ((if j = 0 then n - 1 else j - 1 : ℕ) : ℤ) then
        (place gmin gmax n e.1 - (⌊place gmin gmax n e.1⌋ : K)) * (e.2 / (events.map (·.2)).sum) else 0) +
      if ⌊place gmin gmax n e.1⌋ = (j : ℤ) then
        e.2 / (events.map (·.2)).sum - (place gmin gmax n e.1 - (⌊place gmin gmax n e.1⌋ : K)) * (e.2 / (events.map (·.2)).sum) else 0).sum := by
  obtain ⟨W, hW⟩ : ∃ W, W = (events.map (·.2)).sum := ⟨_, rfl⟩
  simp only [binWeighted, Option.getD_some, ← hW, List.map_map]
  rw [zipWith_maps, zipWith_maps]
  unfold bincount
  by_cases hj : j = 0
  · simp only [if_pos hj]
    rw [zipWith_maps, zipWith_maps, ← List.sum_map_add]
    rfl
  · simp only [if_neg hj]
    rw [zipWith_maps, zipWith_maps, ← List.sum_map_add]
    rfl

/-- Of the grid of `n` points from `gmin` to `gmax`, `x` lies between the point `k` and the next one. -/
theorem place_bounds (gmin gmax : K) (n : ℕ) (hn : 2 ≤ n) (hg : gmin < gmax) (x : K) (h1 : gmin ≤ x) (h2 : x ≤ gmax) :
    ∃ k : ℕ, ⌊place gmin gmax n x⌋ = (k : ℤ) ∧ k < n ∧ (k = n - 1 → place gmin gmax n x - (⌊place gmin gmax n x⌋ : K) = 0) ∧
      0 ≤ place gmin gmax n x - (⌊place gmin gmax n x⌋ : K) ∧ place gmin gmax n x - (⌊place gmin gmax n x⌋ : K) < 1 := by
  have hn' : (0 : K) < (n : K) - 1 := by
    have : (2 : K) ≤ n := by exact_mod_cast hn
    linarith
  have hd : 0 < (gmax - gmin) / ((n : K) - 1) := div_pos (by linarith) hn'
  have p0 : 0 ≤ place gmin gmax n x := div_nonneg (by linarith) hd.le
  have p1 : place gmin gmax n x ≤ (n : K) - 1 := by
    unfold place
    rw [div_le_iff₀ hd, mul_div_cancel₀ _ hn'.ne']
    linarith
  have f0 : 0 ≤ ⌊place gmin gmax n x⌋ := Int.floor_nonneg.2 p0
  have f1 : ⌊place gmin gmax n x⌋ ≤ (n : ℤ) - 1 := by
    have h : ⌊place gmin gmax n x⌋ ≤ ⌊((n : ℤ) - 1 : ℤ) + (0 : K)⌋ := Int.floor_mono (by push_cast; linarith)
    simpa using h
  refine ⟨⌊place gmin gmax n x⌋.toNat, by omega, by omega, fun hk => ?_, by linarith [Int.floor_le (place gmin gmax n x)],
    by linarith [Int.lt_floor_add_one (place gmin gmax n x)]⟩
  have he : ⌊place gmin gmax n x⌋ = (n : ℤ) - 1 := by omega
  have h3 := Int.floor_le (place gmin gmax n x)
  rw [he] at h3 ⊢
  push_cast at h3 ⊢
  linarith

/-- C84. Linear binning splits every event between the two grid points next to it: for any function on the grid, the sum over the
binned sample is the weighted mean over the events of its linear interpolation at the event. -/
theorem linear_binning (events : List (K × K)) (gmin gmax : K) (n : ℕ) (hn : 2 ≤ n) (hg : gmin < gmax)
    (hin : ∀ e ∈ events, gmin ≤ e.1 ∧ e.1 ≤ gmax) (φ : ℕ → K) :
    ∑ j ∈ Finset.range n, φ j * bin1d .linear (events.map (·.1)) gmin gmax n (some (events.map (·.2))) j =
    (events.map fun e => e.2 * interpolate φ ⌊place gmin gmax n e.1⌋.toNat
      (place gmin gmax n e.1 - (⌊place gmin gmax n e.1⌋ : K))).sum / (events.map (·.2)).sum := by
  simp only [bin1d, bin_sum]
  obtain ⟨W, hW⟩ : ∃ W, W = (events.map (·.2)).sum := ⟨_, rfl⟩
  rw [← hW]
  clear hW
  have hex : ∀ (g : ℕ → K × K → K), ∑ j ∈ Finset.range n, φ j * (events.map (g j)).sum =
      (events.map fun e => ∑ j ∈ Finset.range n, φ j * g j e).sum := by
    intro g
    clear hin
    induction events with
    | nil => simp
    | cons e l ih => simp only [List.map_cons, List.sum_cons, mul_add, Finset.sum_add_distrib, ih]
  rw [hex]
  have hdiv : ∀ g : K × K → K, (events.map g).sum / W = (events.map fun e => g e / W).sum := by
    intro g
    clear hin hex
    induction events with
    | nil => simp
    | cons e l ih => simp only [List.map_cons, List.sum_cons, add_div, ih]
  rw [hdiv]
  congr 1
  apply List.map_congr_left
  intro e he
  obtain ⟨k, k1, k2, k3, k4, k5⟩ := place_bounds gmin gmax n hn hg e.1 (hin e he).1 (hin e he).2
  obtain ⟨f, hf⟩ : ∃ f, f = place gmin gmax n e.1 - (⌊place gmin gmax n e.1⌋ : K) := ⟨_, rfl⟩
  rw [← hf] at k3 ⊢
  rw [k1, Int.toNat_natCast]
  simp only [Nat.cast_inj, mul_add, Finset.sum_add_distrib]
  have s2 : ∑ j ∈ Finset.range n, φ j * (if k = j then e.2 / W - f * (e.2 / W) else 0) = φ k * (e.2 / W - f * (e.2 / W)) := by
    rw [Finset.sum_eq_single k]
    · rw [if_pos rfl]
    · intro j _ hj
      rw [if_neg (Ne.symm hj), mul_zero]
    · intro h
      exact absurd (Finset.mem_range.2 k2) h
  have s1 : ∑ j ∈ Finset.range n, φ j * (if k = (if j = 0 then n - 1 else j - 1) then f * (e.2 / W) else 0) = φ (k + 1) * (f * (e.2 / W)) := by
    by_cases hk : k = n - 1
    · rw [k3 hk]
      simp
    · rw [Finset.sum_eq_single (k + 1)]
      · rw [if_neg (Nat.succ_ne_zero k), Nat.add_sub_cancel, if_pos rfl]
      · intro j _ hj
        by_cases h0 : j = 0
        · rw [if_pos h0, if_neg hk, mul_zero]
        · rw [if_neg h0, if_neg (by omega), mul_zero]
      · intro h
        exact absurd (Finset.mem_range.2 (by omega)) h
  rw [s1, s2]
  unfold interpolate
  ring

/-- C84. Linear binning conserves the total weight, which is normalised to one, ... -/
theorem linear_total (events : List (K × K)) (gmin gmax : K) (n : ℕ) (hn : 2 ≤ n) (hg : gmin < gmax)
    (hin : ∀ e ∈ events, gmin ≤ e.1 ∧ e.1 ≤ gmax) (hW : (events.map (·.2)).sum ≠ 0) :
    ∑ j ∈ Finset.range n, bin1d .linear (events.map (·.1)) gmin gmax n (some (events.map (·.2))) j = 1 := by
  have h := linear_binning events gmin gmax n hn hg hin fun _ => 1
  simp only [one_mul, interpolate, mul_one, sub_add_cancel] at h
  rw [h, div_self hW]

/-- ... and the mean of the sample. -/
theorem linear_mean (events : List (K × K)) (gmin gmax : K) (n : ℕ) (hn : 2 ≤ n) (hg : gmin < gmax)
    (hin : ∀ e ∈ events, gmin ≤ e.1 ∧ e.1 ≤ gmax) :
    ∑ j ∈ Finset.range n, linspace gmin gmax n j * bin1d .linear (events.map (·.1)) gmin gmax n (some (events.map (·.2))) j =
      (events.map fun e => e.2 * e.1).sum / (events.map (·.2)).sum := by
  rw [linear_binning events gmin gmax n hn hg hin]
  congr 2
  apply List.map_congr_left
  intro e he
  obtain ⟨k, k1, k2, k3, k4, k5⟩ := place_bounds gmin gmax n hn hg e.1 (hin e he).1 (hin e he).2
  have hn' : (0 : K) < (n : K) - 1 := by
    have : (2 : K) ≤ n := by exact_mod_cast hn
    linarith
  have hd : (gmax - gmin) ≠ 0 := by
    intro h
    linarith
  congr 1
  rw [k1, Int.toNat_natCast]
  unfold interpolate linspace
  rw [if_neg (by omega), if_neg (by omega)]
  push_cast
  have hp : place gmin gmax n e.1 = (e.1 - gmin) * ((n : K) - 1) / (gmax - gmin) := by
    unfold place
    field_simp
  rw [hp]
  field_simp
  ring

/-- C84. Without weights every event counts the same. -/
theorem linear_unweighted (data : List K) (gmin gmax : K) (n j : ℕ) :
    bin1d .linear data gmin gmax n none j = bin1d .linear data gmin gmax n (some (data.map fun _ => 1)) j := rfl

theorem foldl_min_le (l : List K) (a : K) : l.foldl min a ≤ a ∧ ∀ x ∈ l, l.foldl min a ≤ x := by
  induction l generalizing a with
  | nil => exact ⟨le_refl _, fun x hx => absurd hx (List.not_mem_nil)⟩
  | cons b l ih =>
    rw [List.foldl_cons]
    have h := ih (min a b)
    refine ⟨le_trans h.1 (min_le_left _ _), fun x hx => ?_⟩
    rcases List.mem_cons.1 hx with rfl | hx
    · exact le_trans h.1 (min_le_right _ _)
    · exact h.2 x hx

theorem le_foldl_max (l : List K) (a : K) : a ≤ l.foldl max a ∧ ∀ x ∈ l, x ≤ l.foldl max a := by
  induction l generalizing a with
  | nil => exact ⟨le_refl _, fun x hx => absurd hx (List.not_mem_nil)⟩
  | cons b l ih =>
    rw [List.foldl_cons]
    have h := ih (max a b)
    refine ⟨le_trans (le_max_left _ _) h.1, fun x hx => ?_⟩
    rcases List.mem_cons.1 hx with rfl | hx
    · exact le_trans (le_max_right _ _) h.1
    · exact h.2 x hx

/-- C84. The grid covers the data, with a margin on both sides unless all events are equal: then, with the default margins, it
has no width. -/
theorem grid_covers (data : List K) (hd : data ≠ []) (absolute relative : K) (ha : 0 ≤ absolute) (hr : 0 < relative) :
    ∃ lo hi, gridEnds data absolute relative = .ok (lo, hi) ∧ (∀ x ∈ data, lo ≤ x ∧ x ≤ hi) ∧
      ((∃ x ∈ data, ∃ y ∈ data, x ≠ y) → lo < hi ∧ ∀ x ∈ data, lo < x ∧ x < hi) := by
  rcases data with _ | ⟨a, l⟩
  · exact absurd rfl hd
  have hmin := foldl_min_le l a
  have hmax := le_foldl_max l a
  obtain ⟨m, hm⟩ : ∃ m, m = l.foldl min a := ⟨_, rfl⟩
  obtain ⟨M, hM⟩ : ∃ M, M = l.foldl max a := ⟨_, rfl⟩
  rw [← hm] at hmin
  rw [← hM] at hmax
  have hmem : ∀ x ∈ a :: l, m ≤ x ∧ x ≤ M := by
    intro x hx
    rcases List.mem_cons.1 hx with rfl | hx
    · exact ⟨hmin.1, hmax.1⟩
    · exact ⟨hmin.2 x hx, hmax.2 x hx⟩
  have hout : 0 ≤ max (relative * (M - m)) absolute := le_trans ha (le_max_right _ _)
  refine ⟨m - max (relative * (M - m)) absolute, M + max (relative * (M - m)) absolute, ?_, fun x hx => ?_, ?_⟩
  · simp only [gridEnds, minimum, maximum, bind, Except.bind, ← hm, ← hM]
  · have := hmem x hx
    constructor <;> linarith [this.1, this.2]
  · rintro ⟨x, hx, y, hy, hxy⟩
    have hlt : m < M := by
      rcases lt_or_gt_of_ne hxy with h | h
      · linarith [(hmem x hx).1, (hmem y hy).2]
      · linarith [(hmem y hy).1, (hmem x hx).2]
    have hpos : 0 < max (relative * (M - m)) absolute := lt_of_lt_of_le (mul_pos hr (by linarith)) (le_max_left _ _)
    refine ⟨by linarith, fun z hz => ?_⟩
    have := hmem z hz
    constructor <;> linarith [this.1, this.2]

/-- The hypotheses of the theorems are met: three events with weights on a grid of five points from 0 to 4. -/
example : (∀ e ∈ [((3 / 2 : ℚ), (1 : ℚ)), (2, 2), (13 / 4, 1)], (0 : ℚ) ≤ e.1 ∧ e.1 ≤ 4) ∧
    ([((3 / 2 : ℚ), (1 : ℚ)), (2, 2), (13 / 4, 1)].map (·.2)).sum ≠ 0 ∧
    (List.range 5).map (bin1d .linear [3 / 2, 2, 13 / 4] 0 4 5 (some [1, 2, (1 : ℚ)])) = [0, 1 / 8, 5 / 8, 3 / 16, 1 / 16] := by
  decide +kernel

/-- C84 refuted for the method 'simple' with weights ("each event falls into the bin within the bin edges, while the neighbouring
bins get zero counts from this event"): an event at 3/5 is split between two bins. -/
theorem simple_split_violated :
    (List.range 5).map (bin1d .simple [3 / 5] 0 4 5 (some [(1 : ℚ)])) = [2 / 5, 3 / 5, 0, 0, 0] := by decide +kernel

/-- C84 refuted for the method 'simple': giving every event the weight one is not the same as giving none. -/
theorem simple_weights_violated :
    (List.range 5).map (bin1d .simple [3 / 5] 0 4 5 (none : Option (List ℚ))) = [1, 0, 0, 0, 0] ∧
    (List.range 5).map (bin1d .simple [17 / 10] 0 4 5 (none : Option (List ℚ))) = [0, 0, 1, 0, 0] ∧
    (List.range 5).map (bin1d .simple [12 / 5] 0 4 5 (none : Option (List ℚ))) = [0, 0, 0, 1, 0] := by decide +kernel

/-- C84 refuted for a sample of equal events: the grid has no width, so that the position on it is 0/0. -/
theorem grid_degenerate_violated : gridEnds [3, 3, (3 : ℚ)] 0 (1 / 20) = .ok (3, 3) := by decide +kernel

end Zfit.Kde
