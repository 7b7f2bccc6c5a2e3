import Verif.Conv.Model
import Verif.Conv.Spec
import Mathlib.Algebra.BigOperators.Ring.Finset
import Mathlib.Algebra.Order.BigOperators.Group.Finset
import Mathlib.Algebra.Order.Floor.Semiring
import Mathlib.Tactic.FieldSimp
import Mathlib.Tactic.Linarith
import Mathlib.Tactic.Ring
import Mathlib.Tactic.Positivity
import Mathlib.Tactic.LinearCombination

namespace Zfit.Conv

open Zfit Finset Spec

variable {K : Type} [Field K] [LinearOrder K]

/-- Distance between two points of the function. -/
def Grid.stepF (g : Grid K) : K := (g.upperF - g.lowerF) / ((g.nF : K) - 1)

/-- Distance between two points of the kernel. -/
def Grid.stepK (g : Grid K) : K := (g.upperK - g.lowerK) / ((g.nK : K) - 1)

/-- The grids that occur: an odd number of points of the kernel, at least two points of the function. -/
structure Grid.Ok (g : Grid K) (c : ℕ) : Prop where
  odd : g.nK = 2 * c + 1
  pos : 0 < c
  two : 2 ≤ g.nF
  ltF : g.lowerF < g.upperF
  ltK : g.lowerK < g.upperK

theorem convolved_eq (g : Grid K) (f k : K → K) (c i : ℕ) (h : g.nK = 2 * c + 1) :
    convolved g f k i = ∑ m ∈ range g.nK, k (g.xK m) * padded g.nF (fun j => f (g.xF j)) ((i : ℤ) + c - m) := by
  unfold convolved sameCorrelation
  rw [← Finset.sum_range_reflect]
  refine Finset.sum_congr rfl fun m hm => ?_
  have hm' := Finset.mem_range.1 hm
  have h1 : g.nK - 1 - (g.nK - 1 - m) = m := by omega
  have h2 : (i : ℤ) + ((g.nK - 1 - m : ℕ) : ℤ) - (((g.nK - 1) / 2 : ℕ) : ℤ) = (i : ℤ) + c - m := by omega
  simp only [h1, h2]

variable [IsStrictOrderedRing K]

theorem Grid.xF_eq (g : Grid K) (h : 2 ≤ g.nF) (j : ℕ) : g.xF j = g.lowerF + g.stepF * j := by
  unfold Grid.xF Kde.linspace Grid.stepF
  rw [if_neg (by omega)]
  ring

theorem Grid.Ok.stepF_pos {g : Grid K} {c : ℕ} (h : g.Ok c) : 0 < g.stepF := by
  have h2 : (2 : K) ≤ g.nF := by exact_mod_cast h.two
  exact div_pos (sub_pos.2 h.ltF) (by linarith)

theorem Grid.Ok.xK_eq {g : Grid K} {c : ℕ} (h : g.Ok c) (m : ℕ) : g.xK m = g.shift + g.stepK * ((m : K) - c) := by
  have hc : (0 : K) < c := by exact_mod_cast h.pos
  have hn : (g.nK : K) = 2 * c + 1 := by rw [h.odd]; push_cast; ring
  unfold Grid.xK Kde.linspace Grid.stepK Grid.shift
  rw [if_neg (by have := h.pos; have := h.odd; omega), hn]
  field_simp
  ring

theorem Grid.Ok.stepK_pos {g : Grid K} {c : ℕ} (h : g.Ok c) : 0 < g.stepK := by
  have hc : (0 : K) < c := by exact_mod_cast h.pos
  have hn : (g.nK : K) = 2 * c + 1 := by rw [h.odd]; push_cast; ring
  refine div_pos (sub_pos.2 h.ltK) ?_
  rw [hn]; linarith

theorem padded_cut {g : Grid K} {c : ℕ} (h : g.Ok c) (f : K → K) (i : ℤ) :
    padded g.nF (fun j => f (g.xF j)) i = cut g.lowerF g.upperF f (g.lowerF + g.stepF * i) := by
  have hs := h.stepF_pos
  have h2 : (2 : K) ≤ g.nF := by exact_mod_cast h.two
  have hu : g.upperF = g.lowerF + g.stepF * ((g.nF : K) - 1) := by
    unfold Grid.stepF
    rw [div_mul_cancel₀ _ (by linarith)]; ring
  unfold padded cut
  have e1 : (0 ≤ i) ↔ g.lowerF ≤ g.lowerF + g.stepF * i := by
    rw [le_add_iff_nonneg_right, mul_nonneg_iff_of_pos_left hs]
    exact Int.cast_nonneg_iff.symm
  have e2 : (i < g.nF) ↔ g.lowerF + g.stepF * i ≤ g.upperF := by
    rw [hu, add_le_add_iff_left, mul_le_mul_iff_right₀ hs, le_sub_iff_add_le]
    have : ((i : K) + 1 ≤ (g.nF : K)) ↔ (i + 1 : ℤ) ≤ (g.nF : ℤ) := by
      rw [← Int.cast_le (R := K)]; push_cast; rfl
    rw [this]; omega
  by_cases hi : 0 ≤ i ∧ i < g.nF
  · rw [if_pos hi, if_pos ⟨e1.1 hi.1, e2.1 hi.2⟩]
    show f (g.xF i.toNat) = _
    rw [g.xF_eq h.two]
    have : ((i.toNat : ℕ) : K) = (i : K) := by
      rw [← Int.cast_natCast, Int.toNat_of_nonneg hi.1]
    rw [this]
  · rw [if_neg hi, if_neg]
    rintro ⟨a, b⟩
    exact hi ⟨e1.2 a, e2.2 b⟩

/-- The offset by which the weight of the point `m` of the kernel smears the function. -/
def Grid.offset (g : Grid K) (m : ℕ) : K := g.shift + g.stepF / g.stepK * (g.xK m - g.shift)

theorem Grid.Ok.offset_eq {g : Grid K} {c : ℕ} (h : g.Ok c) (m : ℕ) : g.offset m = g.shift + g.stepF * ((m : K) - c) := by
  have := h.stepK_pos.ne'
  unfold Grid.offset
  rw [h.xK_eq]
  field_simp
  ring

theorem convolved_smear {g : Grid K} {c : ℕ} (h : g.Ok c) (f k : K → K) (i : ℕ) :
    convolved g f k i = smear g.nK (fun m => k (g.xK m)) g.offset (cut g.lowerF g.upperF f) (g.xF i + g.shift) := by
  rw [convolved_eq g f k c i h.odd]
  unfold smear
  refine Finset.sum_congr rfl fun m _ => ?_
  rw [padded_cut h, h.offset_eq, g.xF_eq h.two]
  congr 2
  push_cast
  ring

theorem interp_at [FloorRing K] {a b : K} {n : ℕ} (y : ℕ → K) (hn : 2 ≤ n) (hab : a < b) {i : ℕ} (hi : i < n) :
    interpRegular (a + (b - a) / ((n : K) - 1) * i) a b n y = y i := by
  have h2 : (2 : K) ≤ n := by exact_mod_cast hn
  have hin : (i : K) ≤ (n : K) - 1 := by
    have : ((i + 1 : ℕ) : K) ≤ n := by exact_mod_cast hi
    push_cast at this; linarith
  have hba : b - a ≠ 0 := by linarith [sub_pos.2 hab] |> fun (h : 0 < b - a) => h.ne'
  have hn1 : (n : K) - 1 ≠ 0 := by
    have : (0 : K) < (n : K) - 1 := by linarith
    exact this.ne'
  have e : (a + (b - a) / ((n : K) - 1) * i - a) / (b - a) * ((n : K) - 1) = i := by field_simp; ring
  unfold interpRegular
  simp only [e]
  rw [max_eq_left (Nat.cast_nonneg i), min_eq_left hin]
  simp only [Int.floor_natCast, Int.toNat_natCast]
  by_cases hlast : i + 1 ≤ n - 1
  · rw [min_eq_left hlast]
    simp
  · have : i = n - 1 := by omega
    rw [min_eq_right (by omega)]
    have h3 : ((n - 1 - 1 : ℕ) : K) = (i : K) - 1 := by
      have : n - 1 - 1 = i - 1 := by omega
      rw [this, Nat.cast_sub (by omega)]; simp
    rw [h3, this]
    ring

/-- Between the points the result is a mean of two neighbouring values. -/
theorem interp_mix [FloorRing K] (x a b : K) {n : ℕ} (hn : 2 ≤ n) :
    ∃ t : K, 0 ≤ t ∧ t ≤ 1 ∧ ∃ j, j + 1 < n ∧ ∀ y : ℕ → K, interpRegular x a b n y = t * y (j + 1) + (1 - t) * y j := by
  have h2 : (2 : K) ≤ n := by exact_mod_cast hn
  unfold interpRegular
  dsimp only
  set idx := min (max ((x - a) / (b - a) * ((n : K) - 1)) 0) ((n : K) - 1) with hidx
  have h0 : 0 ≤ idx := le_min (le_max_right _ _) (by linarith)
  have h1 : idx ≤ (n : K) - 1 := min_le_right _ _
  have hfl : ((⌊idx⌋.toNat : ℕ) : K) ≤ idx := by
    rw [← Int.cast_natCast, Int.toNat_of_nonneg (Int.floor_nonneg.2 h0)]
    exact Int.floor_le idx
  have hfu : idx < ((⌊idx⌋.toNat : ℕ) : K) + 1 := by
    rw [← Int.cast_natCast, Int.toNat_of_nonneg (Int.floor_nonneg.2 h0)]
    exact Int.lt_floor_add_one idx
  generalize ⌊idx⌋.toNat = q at hfl hfu ⊢
  by_cases hq : q + 1 ≤ n - 1
  · refine ⟨idx - q, by linarith, by linarith, q, by omega, fun y => ?_⟩
    simp only [min_eq_left hq, Nat.add_sub_cancel]
  · have hqn : (n : K) - 1 ≤ q := by
      have : n ≤ q + 1 := by omega
      have : (n : K) ≤ ((q + 1 : ℕ) : K) := by exact_mod_cast this
      push_cast at this; linarith
    have : idx = (n : K) - 1 := le_antisymm h1 (hqn.trans hfl)
    refine ⟨1, by norm_num, le_refl _, n - 2, by omega, fun y => ?_⟩
    have e1 : min (q + 1) (n - 1) = n - 2 + 1 := by omega
    simp only [e1, Nat.add_sub_cancel]
    have e2 : ((n - 2 : ℕ) : K) = (n : K) - 2 := by rw [Nat.cast_sub hn]; simp
    rw [this, e2]
    ring

end Zfit.Conv
