import Verif.Conv.Lemmas
import Mathlib.Data.Rat.Floor

/-! C94: the convolution pdf. -/

namespace Zfit.Conv

open Zfit Finset Spec

variable {K : Type} [Field K] [LinearOrder K] [IsStrictOrderedRing K]

theorem nKernel_odd (n : Option ℕ) : ∃ c, nKernel n = 2 * c + 1 := by
  unfold nKernel
  dsimp only
  split
  · exact ⟨n.getD 51 / 2, by omega⟩
  · exact ⟨n.getD 51 / 2, by omega⟩

/-- The number of points of the kernel is the requested one, or one more if that is even; 51 by default. -/
theorem nKernel_spec (n : ℕ) : nKernel (some n) % 2 = 1 ∧ n ≤ nKernel (some n) ∧ nKernel (some n) ≤ n + 1 ∧ nKernel none = 51 := by
  refine ⟨?_, ?_, ?_, by decide⟩ <;> (unfold nKernel; simp only [Option.getD_some]; split <;> omega)

theorem mkGrid_eq [FloorRing K] {lf uf lk uk : K} {n : ℕ} {g : Grid K} (h : mkGrid lf uf lk uk n = .ok g) :
    uk - lk ≤ uf - lf ∧ g.lowerK = lk ∧ g.upperK = uk ∧ g.nK = n ∧
      g.nF = ⌈(uf + uk - (lf + lk)) / (uk - lk) * n⌉.toNat ∧
      g.lowerF = lf + lk - ((uk - lk) / n * g.nF - (uf + uk - (lf + lk))) / 2 ∧
      g.upperF = uf + uk + ((uk - lk) / n * g.nF - (uf + uk - (lf + lk))) / 2 := by
  unfold mkGrid at h
  dsimp only at h
  split at h
  · cases h
  · rename_i hv
    cases h
    exact ⟨not_lt.1 hv, rfl, rfl, rfl, rfl, rfl, rfl⟩

/-- The range in which the function is evaluated: that of the function plus that of the kernel (lower plus lower, upper plus upper),
widened on both sides by the same amount, less than half a bin, so that it is a whole number of bins of the kernel; there are at least
twice as many points as for the kernel. -/
theorem setup_points [FloorRing K] {lf uf lk uk : K} {n : ℕ} {g : Grid K} (h : mkGrid lf uf lk uk n = .ok g) (hk : lk < uk)
    (hn : 0 < n) :
    g.lowerK = lk ∧ g.upperK = uk ∧ g.nK = n ∧ 2 * n ≤ g.nF ∧ g.upperF - g.lowerF = (uk - lk) / n * g.nF ∧
      ∃ e, 0 ≤ e ∧ e < (uk - lk) / n / 2 ∧ g.lowerF = lf + lk - e ∧ g.upperF = uf + uk + e := by
  obtain ⟨hv, h1, h2, h3, h4, h5, h6⟩ := mkGrid_eq h
  have hw : 0 < uk - lk := sub_pos.2 hk
  have hn' : (0 : K) < n := by exact_mod_cast hn
  set S := uf + uk - (lf + lk) with hS
  have hr : 2 ≤ S / (uk - lk) := by rw [le_div_iff₀ hw]; linarith
  have hrn : (2 * n : K) ≤ S / (uk - lk) * n := mul_le_mul_of_nonneg_right hr hn'.le
  have hc0 : (0 : ℤ) ≤ ⌈S / (uk - lk) * n⌉ := Int.ceil_nonneg (by linarith)
  have hnF : (g.nF : K) = (⌈S / (uk - lk) * n⌉ : K) := by
    rw [h4, ← Int.cast_natCast, Int.toNat_of_nonneg hc0]
  have hle := Int.le_ceil (S / (uk - lk) * n)
  have hlt := Int.ceil_lt_add_one (S / (uk - lk) * (n : K))
  rw [← hnF] at hle hlt
  refine ⟨h1, h2, h3, ?_, ?_, _, ?_, ?_, h5, h6⟩
  · have : ((2 * n : ℕ) : K) ≤ g.nF := by push_cast; linarith
    exact_mod_cast this
  · rw [h5, h6]; ring
  · have e : S = (uk - lk) / n * (S / (uk - lk) * n) := by field_simp
    have : S ≤ (uk - lk) / n * g.nF := by
      rw [e]; exact mul_le_mul_of_nonneg_left hle (div_pos hw hn').le
    linarith
  · have e : S = (uk - lk) / n * (S / (uk - lk) * n) := by field_simp
    have : (uk - lk) / n * g.nF < S + (uk - lk) / n := by
      have := mul_lt_mul_of_pos_left hlt (div_pos hw hn')
      rw [mul_add, ← e, mul_one] at this
      exact this
    linarith

theorem setup_grid_ok [FloorRing K] {lf uf lk uk : K} {n : ℕ} {g : Grid K} (h : mkGrid lf uf lk uk n = .ok g) (hk : lk < uk)
    (hn : n % 2 = 1) (h1 : 1 < n) : g.Ok (n / 2) := by
  obtain ⟨a, b, c, d, e, ⟨x, hx0, hx1, hx2, hx3⟩⟩ := setup_points h hk (by omega)
  obtain ⟨hv, -⟩ := mkGrid_eq h
  refine ⟨by omega, by omega, by omega, ?_, by rw [a, b]; exact hk⟩
  rw [hx2, hx3]
  have := sub_pos.2 hk
  linarith

/-- Part of C94: at every point of its grid (shifted by the centre of the kernel) the pdf is the sum over the points of the kernel of the
kernel times the function at the difference, the function being zero outside of the range in which it is evaluated. Missing: the
offset is not the position of the kernel point (see `kernel_scaled`, `convolution_violated`). -/
theorem value_at_points_partial [FloorRing K] {g : Grid K} {c : ℕ} (h : g.Ok c) (f k : K → K) {i : ℕ} (hi : i < g.nF) :
    unnormalized g f k (g.xF i + g.shift) =
      smear g.nK (fun m => k (g.xK m)) (fun m => g.shift + g.stepF / g.stepK * (g.xK m - g.shift)) (cut g.lowerF g.upperF f)
        (g.xF i + g.shift) := by
  have := interp_at (convolved g f k) h.two (a := g.lowerF + g.shift) (b := g.upperF + g.shift) (by linarith [h.ltF]) hi
  have e : g.lowerF + g.shift + (g.upperF + g.shift - (g.lowerF + g.shift)) / ((g.nF : K) - 1) * i = g.xF i + g.shift := by
    rw [g.xF_eq h.two]; unfold Grid.stepF; ring
  rw [e] at this
  unfold unnormalized
  rw [this, convolved_smear h]
  rfl

/-- In between, the pdf is the weighted mean of two neighbouring points, the same two with the same weight for all functions and
kernels. -/
theorem value_between [FloorRing K] {g : Grid K} {c : ℕ} (h : g.Ok c) (x : K) :
    ∃ t : K, 0 ≤ t ∧ t ≤ 1 ∧ ∃ j, j + 1 < g.nF ∧ ∀ f k : K → K,
      unnormalized g f k x =
        t * unnormalized g f k (g.xF (j + 1) + g.shift) + (1 - t) * unnormalized g f k (g.xF j + g.shift) := by
  obtain ⟨t, h0, h1, j, hj, H⟩ := interp_mix x (g.lowerF + g.shift) (g.upperF + g.shift) h.two
  refine ⟨t, h0, h1, j, hj, fun f k => ?_⟩
  rw [value_at_points_partial h f k hj, value_at_points_partial h f k (by omega)]
  rw [show unnormalized g f k x = _ from H (convolved g f k), convolved_smear h, convolved_smear h]
  rfl

/-- The kernel is always compressed about the centre of its range, by the factor `N (n - 1) / ((N - 1) n) < 1` for `n` points of the
kernel and `N` points of the function. -/
theorem kernel_scaled [FloorRing K] {lf uf lk uk : K} {n : ℕ} {g : Grid K} (h : mkGrid lf uf lk uk n = .ok g) (hk : lk < uk)
    (hn : n % 2 = 1) (h1 : 1 < n) :
    g.stepF / g.stepK = (g.nF * ((n : K) - 1)) / (((g.nF : K) - 1) * n) ∧ 0 < g.stepF / g.stepK ∧ g.stepF / g.stepK < 1 := by
  have ok := setup_grid_ok h hk hn h1
  obtain ⟨a, b, c, d, e, -⟩ := setup_points h hk (by omega)
  have hw : 0 < uk - lk := sub_pos.2 hk
  have hn' : (1 : K) < n := by exact_mod_cast h1
  have hN : (2 * n : K) ≤ g.nF := by exact_mod_cast d
  have e1 : g.stepF / g.stepK = (g.nF * ((n : K) - 1)) / (((g.nF : K) - 1) * n) := by
    unfold Grid.stepF Grid.stepK
    rw [e, a, b, c]
    have : (n : K) - 1 ≠ 0 := by linarith [sub_pos.2 hn'] |> fun (h : 0 < (n : K) - 1) => h.ne'
    have : (g.nF : K) - 1 ≠ 0 := by
      have : 0 < (g.nF : K) - 1 := by linarith
      exact this.ne'
    field_simp
  refine ⟨e1, div_pos ok.stepF_pos ok.stepK_pos, ?_⟩
  rw [e1, div_lt_one (mul_pos (by linarith) (by linarith))]
  linarith

/-! ## Linearity and sign -/

theorem pdf_combine [FloorRing K] {g : Grid K} {c : ℕ} (h : g.Ok c) (x : K) (P : (K → K) → (K → K) → K → Prop)
    (hmix : ∀ f k t u v, 0 ≤ t → t ≤ 1 → P f k u → P f k v → P f k (t * u + (1 - t) * v)) (f k : K → K)
    (hp : ∀ i, i < g.nF → P f k (convolved g f k i)) : P f k (unnormalized g f k x) := by
  obtain ⟨t, h0, h1, j, hj, H⟩ := interp_mix x (g.lowerF + g.shift) (g.upperF + g.shift) h.two
  rw [show unnormalized g f k x = _ from H (convolved g f k)]
  exact hmix f k t _ _ h0 h1 (hp _ hj) (hp _ (by omega))

/-- A convolution of functions that are not negative is not negative. -/
theorem pdf_nonneg [FloorRing K] {g : Grid K} {c : ℕ} (h : g.Ok c) {f k : K → K} (hf : ∀ x, 0 ≤ f x) (hk : ∀ x, 0 ≤ k x) (x : K) :
    0 ≤ unnormalized g f k x := by
  refine pdf_combine h x (fun _ _ v => 0 ≤ v) (fun _ _ t u v a b hu hv => ?_) f k fun i _ => ?_
  · exact add_nonneg (mul_nonneg a hu) (mul_nonneg (by linarith) hv)
  · rw [convolved_eq g f k c i h.odd]
    refine Finset.sum_nonneg fun m _ => mul_nonneg (hk _) ?_
    unfold padded
    split
    · exact hf _
    · exact le_refl _

/-- The convolution is linear in the function. -/
theorem linear_func [FloorRing K] {g : Grid K} {c : ℕ} (h : g.Ok c) (a b : K) (f₁ f₂ k : K → K) (x : K) :
    unnormalized g (fun y => a * f₁ y + b * f₂ y) k x = a * unnormalized g f₁ k x + b * unnormalized g f₂ k x := by
  obtain ⟨t, h0, h1, j, hj, H⟩ := interp_mix x (g.lowerF + g.shift) (g.upperF + g.shift) h.two
  have e : ∀ i, convolved g (fun y => a * f₁ y + b * f₂ y) k i = a * convolved g f₁ k i + b * convolved g f₂ k i := by
    intro i
    simp only [convolved_eq _ _ _ c i h.odd]
    simp only [Finset.mul_sum, ← Finset.sum_add_distrib]
    refine Finset.sum_congr rfl fun m _ => ?_
    unfold padded
    split <;> ring
  unfold unnormalized
  rw [H, H, H, e, e]
  ring

/-- The convolution is linear in the kernel. -/
theorem linear_kernel [FloorRing K] {g : Grid K} {c : ℕ} (h : g.Ok c) (a b : K) (f k₁ k₂ : K → K) (x : K) :
    unnormalized g f (fun y => a * k₁ y + b * k₂ y) x = a * unnormalized g f k₁ x + b * unnormalized g f k₂ x := by
  obtain ⟨t, h0, h1, j, hj, H⟩ := interp_mix x (g.lowerF + g.shift) (g.upperF + g.shift) h.two
  have e : ∀ i, convolved g f (fun y => a * k₁ y + b * k₂ y) i = a * convolved g f k₁ i + b * convolved g f k₂ i := by
    intro i
    simp only [convolved_eq _ _ _ c i h.odd]
    simp only [Finset.mul_sum, ← Finset.sum_add_distrib]
    exact Finset.sum_congr rfl fun m _ => by ring
  unfold unnormalized
  rw [H, H, H, e, e]
  ring

/-! ## The result as a distribution -/

theorem sum_padded {g : Grid K} (f : K → K) (c : ℕ) {m : ℕ} (hm : m ≤ 2 * c) (ψ : ℕ → K)
    (hf : ∀ j, j < g.nF → (j < c ∨ g.nF ≤ j + c) → f (g.xF j) = 0) :
    ∑ i ∈ range g.nF, padded g.nF (fun j => f (g.xF j)) ((i : ℤ) + c - m) * ψ i =
      ∑ j ∈ range g.nF, f (g.xF j) * ψ (j + m - c) := by
  have e : ∀ i ∈ range g.nF, padded g.nF (fun j => f (g.xF j)) ((i : ℤ) + c - m) * ψ i =
      ∑ j ∈ range g.nF, if j + m = i + c then f (g.xF j) * ψ i else 0 := by
    intro i _
    unfold padded
    split
    · rename_i hi
      rw [Finset.sum_eq_single ((i : ℤ) + c - m).toNat]
      · rw [if_pos (by omega)]
      · intro j _ hj
        rw [if_neg (by omega)]
      · intro hn
        exact absurd (Finset.mem_range.2 (by omega)) hn
    · rename_i hi
      rw [zero_mul]
      refine (Finset.sum_eq_zero fun j hj => if_neg ?_).symm
      have := Finset.mem_range.1 hj
      omega
  rw [Finset.sum_congr rfl e, Finset.sum_comm]
  refine Finset.sum_congr rfl fun j hj => ?_
  have hj' := Finset.mem_range.1 hj
  by_cases hb : j < c ∨ g.nF ≤ j + c
  · rw [hf j hj' hb]
    simp
  · rw [Finset.sum_eq_single (j + m - c)]
    · rw [if_pos (by omega)]
    · intro i _ hi
      rw [if_neg (by omega)]
    · intro hn
      exact absurd (Finset.mem_range.2 (by omega)) hn

/-- The points of the result, weighted with the pdf, are distributed as the sum of a point of the function (weighted with the function)
and an independent offset, weighted with the kernel: for every test function `φ`. The function must vanish near the ends of the range in
which it is evaluated, closer than half of the range of the kernel. -/
theorem distribution_of_sum {g : Grid K} {c : ℕ} (h : g.Ok c) (f k φ : K → K)
    (hf : ∀ j, j < g.nF → (j < c ∨ g.nF ≤ j + c) → f (g.xF j) = 0) :
    ∑ i ∈ range g.nF, convolved g f k i * φ (g.xF i + g.shift) =
      ∑ j ∈ range g.nF, ∑ m ∈ range g.nK,
        f (g.xF j) * k (g.xK m) * φ (g.xF j + (g.shift + g.stepF / g.stepK * (g.xK m - g.shift))) := by
  have e : ∀ i ∈ range g.nF, convolved g f k i * φ (g.xF i + g.shift) =
      ∑ m ∈ range g.nK, k (g.xK m) * (padded g.nF (fun j => f (g.xF j)) ((i : ℤ) + c - m) * φ (g.xF i + g.shift)) := by
    intro i _
    rw [convolved_eq g f k c i h.odd, Finset.sum_mul]
    exact Finset.sum_congr rfl fun m _ => by ring
  rw [Finset.sum_congr rfl e, Finset.sum_comm]
  rw [Finset.sum_comm (s := range g.nF) (t := range g.nK)]
  refine Finset.sum_congr rfl fun m hm => ?_
  have hm' := Finset.mem_range.1 hm
  have hodd := h.odd
  rw [← Finset.mul_sum, sum_padded f c (by omega) (fun i => φ (g.xF i + g.shift)) hf, Finset.mul_sum]
  refine Finset.sum_congr rfl fun j hj => ?_
  have hj' := Finset.mem_range.1 hj
  by_cases hb : j < c ∨ g.nF ≤ j + c
  · rw [hf j hj' hb]; ring
  · have := h.offset_eq m
    unfold Grid.offset at this
    rw [this]
    have hx : g.xF (j + m - c) + g.shift = g.xF j + (g.shift + g.stepF * ((m : K) - c)) := by
      rw [g.xF_eq h.two, g.xF_eq h.two, Nat.cast_sub (by omega)]
      push_cast
      ring
    rw [hx]
    ring

variable {g : Grid K} {c : ℕ}

/-- The total of the result is the product of the totals. -/
theorem total_product (h : g.Ok c) (f k : K → K) (hf : ∀ j, j < g.nF → (j < c ∨ g.nF ≤ j + c) → f (g.xF j) = 0) :
    total g.nF (convolved g f k) = total g.nF (fun j => f (g.xF j)) * total g.nK (fun m => k (g.xK m)) := by
  have := distribution_of_sum h f k (fun _ => 1) hf
  simp only [mul_one] at this
  unfold total
  rw [this, Finset.sum_mul_sum]

theorem sum_centred (n : ℕ) (w x : ℕ → K) (hw : total n w ≠ 0) : ∑ i ∈ range n, w i * (x i - mean n w x) = 0 := by
  simp only [mul_sub, Finset.sum_sub_distrib, ← Finset.sum_mul]
  unfold mean
  rw [show ∑ i ∈ range n, w i = total n w from rfl, mul_div_cancel₀ _ hw, sub_self]

/-- The mean of the result: the mean of the function plus the mean of the (compressed) kernel. -/
theorem mean_sum (h : g.Ok c) (f k : K → K) (hf : ∀ j, j < g.nF → (j < c ∨ g.nF ≤ j + c) → f (g.xF j) = 0)
    (hF : total g.nF (fun j => f (g.xF j)) ≠ 0) (hK : total g.nK (fun m => k (g.xK m)) ≠ 0) :
    mean g.nF (convolved g f k) (fun i => g.xF i + g.shift) =
      mean g.nF (fun j => f (g.xF j)) g.xF +
        (g.shift + g.stepF / g.stepK * (mean g.nK (fun m => k (g.xK m)) g.xK - g.shift)) := by
  have e := distribution_of_sum h f k (fun x => x) hf
  set r := g.stepF / g.stepK
  have e2 : ∑ j ∈ range g.nF, ∑ m ∈ range g.nK, f (g.xF j) * k (g.xK m) * (g.xF j + (g.shift + r * (g.xK m - g.shift))) =
      (∑ j ∈ range g.nF, f (g.xF j) * g.xF j) * total g.nK (fun m => k (g.xK m)) +
        total g.nF (fun j => f (g.xF j)) * ((g.shift - r * g.shift) * total g.nK (fun m => k (g.xK m)) +
          r * ∑ m ∈ range g.nK, k (g.xK m) * g.xK m) := by
    unfold total
    rw [Finset.sum_mul_sum, Finset.mul_sum (range g.nK), Finset.mul_sum (range g.nK), ← Finset.sum_add_distrib, Finset.sum_mul_sum,
      ← Finset.sum_add_distrib]
    refine Finset.sum_congr rfl fun j _ => ?_
    rw [← Finset.sum_add_distrib]
    exact Finset.sum_congr rfl fun m _ => by ring
  unfold mean
  rw [total_product h f k hf, e, e2]
  field_simp
  ring

/-- The variance of the result is the variance of the function plus that of the kernel times the square of the compression. -/
theorem variance_sum (h : g.Ok c) (f k : K → K) (hf : ∀ j, j < g.nF → (j < c ∨ g.nF ≤ j + c) → f (g.xF j) = 0)
    (hF : total g.nF (fun j => f (g.xF j)) ≠ 0) (hK : total g.nK (fun m => k (g.xK m)) ≠ 0) :
    variance g.nF (convolved g f k) (fun i => g.xF i + g.shift) =
      variance g.nF (fun j => f (g.xF j)) g.xF + (g.stepF / g.stepK) ^ 2 * variance g.nK (fun m => k (g.xK m)) g.xK := by
  have hmean := mean_sum h f k hf hF hK
  set μ := mean g.nF (convolved g f k) (fun i => g.xF i + g.shift) with hμ
  set μF := mean g.nF (fun j => f (g.xF j)) g.xF with hμF
  set μK := mean g.nK (fun m => k (g.xK m)) g.xK with hμK
  set r := g.stepF / g.stepK with hr
  have cF := sum_centred g.nF (fun j => f (g.xF j)) g.xF hF
  have cK := sum_centred g.nK (fun m => k (g.xK m)) g.xK hK
  rw [← hμF] at cF
  rw [← hμK] at cK
  have e := distribution_of_sum h f k (fun x => (x - μ) ^ 2) hf
  have e2 : ∑ j ∈ range g.nF, ∑ m ∈ range g.nK,
        f (g.xF j) * k (g.xK m) * (g.xF j + (g.shift + r * (g.xK m - g.shift)) - μ) ^ 2 =
      (∑ j ∈ range g.nF, f (g.xF j) * (g.xF j - μF) ^ 2) * (∑ m ∈ range g.nK, k (g.xK m)) +
        2 * r * ((∑ j ∈ range g.nF, f (g.xF j) * (g.xF j - μF)) * ∑ m ∈ range g.nK, k (g.xK m) * (g.xK m - μK)) +
        r ^ 2 * ((∑ j ∈ range g.nF, f (g.xF j)) * ∑ m ∈ range g.nK, k (g.xK m) * (g.xK m - μK) ^ 2) := by
    simp only [Finset.sum_mul_sum]
    simp only [Finset.mul_sum, ← Finset.sum_add_distrib]
    refine Finset.sum_congr rfl fun j _ => Finset.sum_congr rfl fun m _ => ?_
    rw [hmean]
    ring
  rw [cF, zero_mul, mul_zero, add_zero] at e2
  unfold variance
  rw [total_product h f k hf, ← hμ, ← hμF, ← hμK, e, e2]
  unfold total at hF hK ⊢
  field_simp

end Zfit.Conv
