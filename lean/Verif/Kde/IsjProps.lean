import Verif.Kde.IsjModel
import Verif.Kde.FftProps
import Verif.Kde.RulesViolated
import Mathlib.Probability.Distributions.Gaussian.Real

/-! Theorems about the improved Sheather-Jones estimate (C228-C230) and the adaptive bandwidths (C231). -/

namespace Zfit.Kde

open Zfit MeasureTheory ProbabilityTheory

/-! ## The transforms -/

/-- The kernel of Dirichlet. -/
theorem dirichlet (α : ℝ) (M : ℕ) :
    Real.sin (α / 2) * (1 + 2 * ∑ k ∈ Finset.range M, Real.cos ((k + 1 : ℕ) * α)) = Real.sin ((M + 1 / 2) * α) := by
  induction M with
  | zero => simp; ring_nf
  | succ M ih =>
    rw [Finset.sum_range_succ]
    have h1 : Real.sin (((M : ℝ) + 1 + 1 / 2) * α) - Real.sin (((M : ℝ) + 1 / 2) * α) = 2 * Real.sin (α / 2) * Real.cos (((M : ℝ) + 1) * α) := by
      rw [Real.sin_sub_sin]
      congr 2
      · congr 1; ring
      · ring
    push_cast at ih ⊢
    linear_combination ih - h1

/-- The sum of cosines over the coefficients at a multiple of `π / n`. -/
theorem dirichlet_at (n : ℕ) (hn : 1 ≤ n) (m : ℤ) (hm : m ≠ 0) (hm' : |m| < 2 * n) :
    1 + 2 * ∑ k ∈ Finset.range (n - 1), Real.cos ((k + 1 : ℕ) * (Real.pi * m / n)) = -(-1 : ℝ) ^ m := by
  have hn0 : (0 : ℝ) < n := by exact_mod_cast hn
  have h := dirichlet (Real.pi * m / n) (n - 1)
  have hs : Real.sin (Real.pi * m / n / 2) ≠ 0 := by
    intro h0
    obtain ⟨q, hq⟩ := Real.sin_eq_zero_iff.1 h0
    have : (q : ℝ) * (2 * n) = m := by
      have hpi := Real.pi_pos.ne'
      field_simp at hq
      linarith
    have hq' : q * (2 * n) = m := by exact_mod_cast this
    rw [← hq', abs_mul] at hm'
    have h2n : |(2 * (n : ℤ))| = 2 * n := abs_of_nonneg (by omega)
    rw [h2n] at hm'
    have hq0 : |q| < 1 := by
      by_contra hcon
      push Not at hcon
      have : 1 * (2 * (n : ℤ)) ≤ |q| * (2 * n) := mul_le_mul_of_nonneg_right hcon (by omega)
      omega
    have : q = 0 := Int.abs_lt_one_iff.1 hq0
    subst this
    simp at hq'
    exact hm hq'.symm
  have harg : ((n - 1 : ℕ) + 1 / 2 : ℝ) * (Real.pi * m / n) = m * Real.pi - Real.pi * m / n / 2 := by
    rw [Nat.cast_sub hn]
    push_cast
    field_simp
    ring
  rw [harg, Real.sin_int_mul_pi_sub] at h
  have : Real.sin (Real.pi * m / n / 2) * (1 + 2 * ∑ k ∈ Finset.range (n - 1), Real.cos ((k + 1 : ℕ) * (Real.pi * m / n))) =
      Real.sin (Real.pi * m / n / 2) * (-(-1 : ℝ) ^ m) := by rw [h]; ring
  exact mul_left_cancel₀ hs this

/-- The product of the waves of two grid points, summed over the coefficients. -/
theorem waves_orthogonal (n : ℕ) (i j : ℕ) (hi : i < n) (hj : j < n) :
    1 + 2 * ∑ k ∈ Finset.range (n - 1), Real.cos (Real.pi * (k + 1 : ℕ) * (2 * i + 1) / (2 * n)) *
      Real.cos (Real.pi * (k + 1 : ℕ) * (2 * j + 1) / (2 * n)) = if i = j then (n : ℝ) else 0 := by
  have hn : 1 ≤ n := by omega
  have hn0 : (n : ℝ) ≠ 0 := by exact_mod_cast (by omega : n ≠ 0)
  have hprod : ∀ k : ℕ, Real.cos (Real.pi * (k + 1 : ℕ) * (2 * i + 1) / (2 * n)) * Real.cos (Real.pi * (k + 1 : ℕ) * (2 * j + 1) / (2 * n)) =
      (Real.cos ((k + 1 : ℕ) * (Real.pi * ((i : ℤ) - j : ℤ) / n)) + Real.cos ((k + 1 : ℕ) * (Real.pi * ((i : ℤ) + j + 1 : ℤ) / n))) / 2 := by
    intro k
    have e1 : (k + 1 : ℕ) * (Real.pi * ((i : ℤ) - j : ℤ) / n) = Real.pi * (k + 1 : ℕ) * (2 * i + 1) / (2 * n) - Real.pi * (k + 1 : ℕ) * (2 * j + 1) / (2 * n) := by
      push_cast; field_simp; ring
    have e2 : (k + 1 : ℕ) * (Real.pi * ((i : ℤ) + j + 1 : ℤ) / n) = Real.pi * (k + 1 : ℕ) * (2 * i + 1) / (2 * n) + Real.pi * (k + 1 : ℕ) * (2 * j + 1) / (2 * n) := by
      push_cast; field_simp; ring
    rw [e1, e2, Real.cos_sub, Real.cos_add]
    ring
  rw [Finset.sum_congr rfl fun k _ => hprod k, ← Finset.sum_div, Finset.sum_add_distrib]
  have hsum := dirichlet_at n hn ((i : ℤ) + j + 1) (by omega) (by rw [abs_of_nonneg (by omega)]; omega)
  split
  · rename_i hij
    subst hij
    have hodd : (-1 : ℝ) ^ ((i : ℤ) + i + 1) = -1 := by
      apply Odd.neg_one_zpow
      exact ⟨i, by ring⟩
    rw [hodd] at hsum
    have hzero : ∑ k ∈ Finset.range (n - 1), Real.cos ((k + 1 : ℕ) * (Real.pi * ((i : ℤ) - i : ℤ) / n)) = (n : ℝ) - 1 := by
      rw [Finset.sum_congr rfl (g := fun _ => (1 : ℝ)) (fun k _ => by simp)]
      simp [Nat.cast_sub hn]
    rw [hzero]
    linarith
  · rename_i hij
    have hdiff := dirichlet_at n hn ((i : ℤ) - j) (by omega) (by rw [abs_lt]; omega)
    have hpar : (-1 : ℝ) ^ ((i : ℤ) + j + 1) = -(-1 : ℝ) ^ ((i : ℤ) - j) := by
      rw [show (i : ℤ) + j + 1 = (i - j) + (2 * j + 1) by ring, zpow_add₀ (by norm_num), Odd.neg_one_zpow ⟨j, rfl⟩]
      ring
    rw [hpar] at hsum
    linarith

/-- The two transforms are inverse to each other, up to the factor `2 n`. -/
theorem idct_dct (n : ℕ) (c : ℕ → ℝ) (j : ℕ) (hj : j < n) : idct n (dct n c) j = 2 * n * c j := by
  unfold idct dct
  have h0 : ∀ i : ℕ, Real.cos (Real.pi * (0 : ℕ) * (2 * i + 1) / (2 * n)) = 1 := by intro i; simp
  simp only [h0, mul_one]
  have hswap : ∑ k ∈ Finset.range (n - 1), (2 * ∑ i ∈ Finset.range n, c i * Real.cos (Real.pi * (k + 1 : ℕ) * (2 * i + 1) / (2 * n))) *
      Real.cos (Real.pi * (k + 1 : ℕ) * (2 * j + 1) / (2 * n)) = ∑ i ∈ Finset.range n, c i * (2 * ∑ k ∈ Finset.range (n - 1),
        Real.cos (Real.pi * (k + 1 : ℕ) * (2 * i + 1) / (2 * n)) * Real.cos (Real.pi * (k + 1 : ℕ) * (2 * j + 1) / (2 * n))) := by
    simp only [Finset.mul_sum, Finset.sum_mul]
    rw [Finset.sum_comm]
    refine Finset.sum_congr rfl fun i _ => Finset.sum_congr rfl fun k _ => ?_
    ring
  rw [hswap, ← mul_add, ← Finset.sum_add_distrib]
  have : ∀ i ∈ Finset.range n, c i + c i * (2 * ∑ k ∈ Finset.range (n - 1),
        Real.cos (Real.pi * (k + 1 : ℕ) * (2 * i + 1) / (2 * n)) * Real.cos (Real.pi * (k + 1 : ℕ) * (2 * j + 1) / (2 * n))) =
      if i = j then (n : ℝ) * c j else 0 := by
    intro i hi
    have := waves_orthogonal n i j (Finset.mem_range.1 hi) hj
    split at this
    · rename_i hij
      rw [if_pos hij]
      subst hij
      linear_combination c i * this
    · rename_i hij
      rw [if_neg hij]
      linear_combination c i * this
  rw [Finset.sum_congr rfl this, Finset.sum_ite_eq' , if_pos (Finset.mem_range.2 hj)]
  ring

/-- Smoothing a wave with a Gaussian. -/
theorem gaussian_wave (ω x : ℝ) (v : NNReal) :
    ∫ u, Real.cos (ω * (x - u)) ∂(gaussianReal 0 v) = Real.exp (-ω ^ 2 * v / 2) * Real.cos (ω * x) := by
  have hc : Integrable (fun u => Real.cos (ω * u)) (gaussianReal 0 v) := by
    refine (integrable_const (1 : ℝ)).mono' (by fun_prop) (Filter.Eventually.of_forall fun u => ?_)
    simpa using Real.abs_cos_le_one _
  have hs : Integrable (fun u => Real.sin (ω * u)) (gaussianReal 0 v) := by
    refine (integrable_const (1 : ℝ)).mono' (by fun_prop) (Filter.Eventually.of_forall fun u => ?_)
    simpa using Real.abs_sin_le_one _
  have hch : charFun (gaussianReal 0 v) ω = ((Real.exp (-ω ^ 2 * v / 2) : ℝ) : ℂ) := by
    rw [charFun_gaussianReal]
    push_cast
    congr 1
    ring
  obtain ⟨E, hE⟩ : ∃ E, E = Real.exp (-ω ^ 2 * v / 2) := ⟨_, rfl⟩
  rw [charFun_apply_real, ← hE] at hch
  rw [← hE]
  have hsplit : ∀ u : ℝ, Complex.exp (ω * u * Complex.I) = ((Real.cos (ω * u) : ℝ) : ℂ) + ((Real.sin (ω * u) : ℝ) : ℂ) * Complex.I := by
    intro u
    rw [Complex.exp_mul_I]
    push_cast
    rfl
  simp only [hsplit] at hch
  rw [integral_add hc.ofReal (hs.ofReal.mul_const _), integral_mul_const, integral_complex_ofReal, integral_complex_ofReal] at hch
  have hre := congrArg Complex.re hch
  have him := congrArg Complex.im hch
  simp at hre him
  have hexp : ∀ u : ℝ, Real.cos (ω * (x - u)) = Real.cos (ω * x) * Real.cos (ω * u) + Real.sin (ω * x) * Real.sin (ω * u) := by
    intro u
    rw [mul_sub, Real.cos_sub]
  simp only [hexp]
  rw [integral_add (hc.const_mul _) (hs.const_mul _), integral_const_mul, integral_const_mul, hre, him]
  ring

/-! ## C228: what the estimate is -/

/-- Specification: a sum of `n` standing waves on the grid with the first point `lo` and the step `dx`.  It is mirrored at
half a step before the first and behind the last of `n` points. -/
noncomputable def standing (n : ℕ) (a : ℕ → ℝ) (lo dx x : ℝ) : ℝ :=
  a 0 + ∑ k ∈ Finset.range (n - 1), a (k + 1) * Real.cos ((k + 1 : ℕ) * (Real.pi / (n * dx)) * (x - (lo - dx / 2)))

theorem standing_mirrored (n : ℕ) (hn : 1 ≤ n) (a : ℕ → ℝ) (lo dx : ℝ) (hdx : dx ≠ 0) (y : ℝ) :
    standing n a lo dx ((lo - dx / 2) - y) = standing n a lo dx ((lo - dx / 2) + y) ∧
    standing n a lo dx ((lo + (n - 1) * dx + dx / 2) - y) = standing n a lo dx ((lo + (n - 1) * dx + dx / 2) + y) := by
  have hn0 : (n : ℝ) ≠ 0 := by exact_mod_cast (by omega : n ≠ 0)
  unfold standing
  constructor
  · congr 1
    refine Finset.sum_congr rfl fun k _ => ?_
    congr 1
    rw [← Real.cos_neg]
    congr 1
    ring
  · congr 1
    refine Finset.sum_congr rfl fun k _ => ?_
    congr 1
    have e : (k + 1 : ℕ) * (Real.pi / (n * dx)) * (lo + (n - 1) * dx + dx / 2 + y - (lo - dx / 2)) =
        (k + 1 : ℕ) * (2 * Real.pi) - (k + 1 : ℕ) * (Real.pi / (n * dx)) * (lo + (n - 1) * dx + dx / 2 - y - (lo - dx / 2)) := by
      field_simp
      ring
    rw [e, Real.cos_nat_mul_two_pi_sub]

/-- Before negative values are set to zero, the estimate at the points of the grid is the binned sample, continued to a sum
of standing waves, smoothed with a Gaussian of the width `√t n dx` and divided by the range of the sample. -/
theorem isj_is_smoothing (n : ℕ) (c : ℕ → ℝ) (lo dx range : ℝ) (hdx : dx ≠ 0) :
    ∃ a : ℕ → ℝ, (∀ j < n, standing n a lo dx (lo + j * dx) = c j) ∧
      ∀ t : NNReal, ∀ j < n, rawDensity n c t range j =
        n / range * ∫ u, standing n a lo dx (lo + j * dx - u) ∂(gaussianReal 0 (t * Real.toNNReal ((n * dx) ^ 2))) := by
  have harg : ∀ (k j : ℕ), 0 < n → (k + 1 : ℕ) * (Real.pi / (n * dx)) * (lo + j * dx - (lo - dx / 2)) = Real.pi * (k + 1 : ℕ) * (2 * j + 1) / (2 * n) := by
    intro k j hn
    have hn0 : (n : ℝ) ≠ 0 := by exact_mod_cast hn.ne'
    field_simp
    ring
  refine ⟨fun k => if k = 0 then dct n c 0 / (2 * n) else dct n c k / n, ?_, ?_⟩
  · intro j hj
    have hn0 : (n : ℝ) ≠ 0 := by exact_mod_cast (by omega : n ≠ 0)
    have h := idct_dct n c j hj
    unfold idct at h
    unfold standing
    simp only [if_true, Nat.add_eq_zero_iff, one_ne_zero, and_false, if_false, harg _ j (by omega)]
    rw [eq_comm, ← mul_right_inj' (mul_ne_zero two_ne_zero hn0), ← h, mul_add, mul_div_cancel₀ _ (mul_ne_zero two_ne_zero hn0), Finset.mul_sum,
      Finset.mul_sum]
    congr 1
    refine Finset.sum_congr rfl fun k _ => ?_
    field_simp
  · intro t j hj
    have hn0 : (n : ℝ) ≠ 0 := by exact_mod_cast (by omega : n ≠ 0)
    set v := t * Real.toNNReal ((n * dx) ^ 2) with hv
    have hvr : (v : ℝ) = t * (n * dx) ^ 2 := by
      rw [hv]
      push_cast
      rw [Real.coe_toNNReal _ (sq_nonneg _)]
    have hint : ∀ (ω x b : ℝ), Integrable (fun u => b * Real.cos (ω * (x - u))) (gaussianReal 0 v) := by
      intro ω x b
      refine Integrable.const_mul ?_ b
      refine (integrable_const (1 : ℝ)).mono' (by fun_prop) (Filter.Eventually.of_forall fun u => ?_)
      simpa using Real.abs_cos_le_one _
    have hsm : ∫ u, standing n (fun k => if k = 0 then dct n c 0 / (2 * n) else dct n c k / n) lo dx (lo + j * dx - u) ∂(gaussianReal 0 v) =
        dct n c 0 / (2 * n) + ∑ k ∈ Finset.range (n - 1), dct n c (k + 1) / n * (Real.exp (-((k + 1 : ℕ) : ℝ) ^ 2 * Real.pi ^ 2 * t / 2) *
          Real.cos (Real.pi * (k + 1 : ℕ) * (2 * j + 1) / (2 * n))) := by
      unfold standing
      have hre : ∀ (k : ℕ) (u : ℝ), (lo + j * dx - u - (lo - dx / 2)) = (lo + j * dx - (lo - dx / 2)) - u := fun k u => by ring
      simp only [if_true, Nat.add_eq_zero_iff, one_ne_zero, and_false, if_false]
      rw [integral_add (integrable_const _)]
      · rw [integral_const, integral_finset_sum]
        · simp only [probReal_univ, one_smul]
          congr 1
          refine Finset.sum_congr rfl fun k _ => ?_
          simp only [hre k]
          rw [integral_const_mul, gaussian_wave, harg k j (by omega), hvr]
          congr 3
          field_simp
        · intro k _
          simp only [hre k]
          exact hint _ _ _
      · refine integrable_finset_sum _ fun k _ => ?_
        simp only [hre k]
        exact hint _ _ _
    rw [hsm]
    unfold rawDensity idct
    simp only [Nat.cast_zero]
    rw [show (-(0 : ℝ) ^ 2 * Real.pi ^ 2 * t / 2) = 0 by ring, Real.exp_zero, mul_one, mul_add, div_mul_div_comm, Finset.mul_sum, Finset.mul_sum,
      add_div, Finset.sum_div]
    congr 1
    · field_simp
    · refine Finset.sum_congr rfl fun k _ => ?_
      field_simp

theorem isj_ok (root : ℝ → (ℝ → ℝ) → Option ℝ) (data : List ℝ) (n : ℕ) (m : Method) (w : Option (List ℝ)) (r : Isj)
    (h : isj root data n m w = .ok r) : ∃ lo hi t, minimum data = .ok lo ∧ maximum data = .ok hi ∧ gridEnds data 6 (1 / 2) = .ok (r.gmin, r.gmax) ∧
      root data.dedup.length (fixedPoint n (fun k => dct n (bin1d m data r.gmin r.gmax n w) k ^ 2 / 4) data.dedup.length) = some t ∧
      r.bandwidth = Real.sqrt t * (hi - lo) ∧ r.values = fun j => max 0 (rawDensity n (bin1d m data r.gmin r.gmax n w) t (hi - lo) j) := by
  unfold isj at h
  split at h
  · rename_i gmin gmax lo hi hg hlo hhi
    dsimp only at h
    split at h
    · cases h
    · rename_i t ht
      cases h
      exact ⟨lo, hi, t, hlo, hhi, hg, ht, rfl, rfl⟩
  · cases h

/-- The range of the sample, and the width of the grid: at least twice the range. -/
theorem isj_grid (data : List ℝ) (lo hi gmin gmax : ℝ) (hlo : minimum data = .ok lo) (hhi : maximum data = .ok hi)
    (hg : gridEnds data 6 (1 / 2) = .ok (gmin, gmax)) : lo ∈ data ∧ hi ∈ data ∧ lo ≤ hi ∧ (∀ x ∈ data, lo ≤ x ∧ x ≤ hi) ∧ 2 * (hi - lo) ≤ gmax - gmin ∧ 12 ≤ gmax - gmin ∧
      (12 ≤ hi - lo → gridEnds data 0 (1 / 2) = .ok (gmin, gmax)) := by
  rcases data with _ | ⟨a, l⟩
  · cases hlo
  simp only [minimum, maximum, Except.ok.injEq] at hlo hhi
  simp only [gridEnds, minimum, maximum, bind, Except.bind, Except.ok.injEq, Prod.mk.injEq] at hg
  have h1 : l.foldl min a ≤ l.foldl max a := le_trans (foldl_min_le l a).1 (le_foldl_max l a).1
  have hmin := foldl_min_le l a
  have hmax := le_foldl_max l a
  refine ⟨hlo ▸ foldl_min_mem l a, hhi ▸ foldl_max_mem l a, by rw [← hlo, ← hhi]; exact h1, ?_, ?_, ?_, ?_⟩
  · intro x hx
    rw [← hlo, ← hhi]
    rcases List.mem_cons.1 hx with rfl | hx
    · exact ⟨hmin.1, hmax.1⟩
    · exact ⟨hmin.2 x hx, hmax.2 x hx⟩
  · rw [← hg.1, ← hg.2, ← hlo, ← hhi]
    have := le_max_left (1 / 2 * (l.foldl max a - l.foldl min a)) 6
    linarith
  · rw [← hg.1, ← hg.2]
    have := le_max_right (1 / 2 * (l.foldl max a - l.foldl min a)) 6
    linarith
  · intro h12
    rw [← hlo, ← hhi] at h12
    have e1 : max (1 / 2 * (l.foldl max a - l.foldl min a)) 6 = 1 / 2 * (l.foldl max a - l.foldl min a) := max_eq_left (by linarith)
    have e2 : max (1 / 2 * (l.foldl max a - l.foldl min a)) 0 = 1 / 2 * (l.foldl max a - l.foldl min a) := max_eq_left (by linarith)
    rw [e1] at hg
    simp only [gridEnds, minimum, maximum, bind, Except.bind, e2, hg.1, hg.2]

/-- **C228.**  The values of a `KDE1DimISJ` on its grid are the binned sample, continued to a sum of standing waves that is
mirrored at the ends of the grid (`standing_mirrored`), smoothed with a Gaussian, divided by the range and set to zero where
this is negative.  The grid covers the sample. -/
theorem isj_smoothed (root : ℝ → (ℝ → ℝ) → Option ℝ) (hroot : ∀ s f t, root s f = some t → 0 < t) (data : List ℝ) (n : ℕ) (hn : 2 ≤ n) (m : Method)
    (w : Option (List ℝ)) (r : Isj) (h : isj root data n m w = .ok r) :
    (∀ x ∈ data, r.gmin < x ∧ x < r.gmax) ∧
    ∃ x ∈ data, ∃ y ∈ data, (∀ z ∈ data, y ≤ z ∧ z ≤ x) ∧ ∃ a : ℕ → ℝ, ∃ v : NNReal, 0 < v ∧
      (∀ j < n, standing n a r.gmin ((r.gmax - r.gmin) / (n - 1)) (gridPoint r.gmin r.gmax n j) = bin1d m data r.gmin r.gmax n w j) ∧
      ∀ j < n, r.values j = max 0 (n / (x - y) * ∫ u, standing n a r.gmin ((r.gmax - r.gmin) / (n - 1)) (gridPoint r.gmin r.gmax n j - u) ∂(gaussianReal 0 v)) := by
  obtain ⟨lo, hi, t, hlo, hhi, hg, ht, hb, hv⟩ := isj_ok root data n m w r h
  obtain ⟨mlo, mhi, hle, hall, hw2, hw12, -⟩ := isj_grid data lo hi r.gmin r.gmax hlo hhi hg
  have hn1 : (0 : ℝ) < (n : ℝ) - 1 := by
    have : (1 : ℝ) < n := by exact_mod_cast (by omega : 1 < n)
    linarith
  have hdx : (r.gmax - r.gmin) / ((n : ℝ) - 1) ≠ 0 := (div_pos (by linarith) hn1).ne'
  obtain ⟨a, ha, hs⟩ := isj_is_smoothing n (bin1d m data r.gmin r.gmax n w) r.gmin ((r.gmax - r.gmin) / ((n : ℝ) - 1)) (hi - lo) hdx
  refine ⟨?_, hi, mhi, lo, mlo, hall, a, Real.toNNReal t * Real.toNNReal ((n * ((r.gmax - r.gmin) / ((n : ℝ) - 1))) ^ 2), ?_, ha, fun j hj => ?_⟩
  · rcases data with _ | ⟨b, l⟩
    · cases hlo
    simp only [minimum, maximum, Except.ok.injEq] at hlo hhi
    simp only [gridEnds, minimum, maximum, bind, Except.bind, Except.ok.injEq, Prod.mk.injEq] at hg
    intro x hx
    have := le_max_right (1 / 2 * (l.foldl max b - l.foldl min b)) 6
    rw [← hg.1, ← hg.2, hlo, hhi]
    rw [hlo, hhi] at this
    have h2 := hall x hx
    constructor <;> linarith
  · have hn0 : (n : ℝ) ≠ 0 := by exact_mod_cast (by omega : n ≠ 0)
    exact mul_pos (Real.toNNReal_pos.2 (hroot _ _ _ ht)) (Real.toNNReal_pos.2 (by positivity))
  · have h2 := hs (Real.toNNReal t) j hj
    rw [Real.coe_toNNReal t (hroot _ _ _ ht).le] at h2
    rw [hv]
    dsimp only
    rw [h2]
    rfl

/-- The hypotheses are met: a sample of three events and a search that finds 1/100. -/
example : (isj (fun _ _ => some (1 / 100)) [0, 1, 5] 3 .linear none).toOption.isSome = true := by
  simp [isj, gridEnds, minimum, maximum, bind, Except.bind, Except.toOption]

/-! ## C229: the bandwidth reported -/

/-- **C229 does not hold**, for any sample of two different events: the Gaussian with which the sample is smoothed is more
than twice as wide as the bandwidth reported, the range of the sample having been taken for the width of the grid. -/
theorem isj_bandwidth_violated (root : ℝ → (ℝ → ℝ) → Option ℝ) (hroot : ∀ s f t, root s f = some t → 0 < t) (data : List ℝ)
    (hne : ∃ x ∈ data, ∃ y ∈ data, x < y) (n : ℕ) (hn : 2 ≤ n) (m : Method) (w : Option (List ℝ)) (r : Isj) (h : isj root data n m w = .ok r) :
    ∃ width : ℝ, 0 < r.bandwidth ∧ 2 * r.bandwidth < width ∧
    ∃ x ∈ data, ∃ y ∈ data, ∃ a : ℕ → ℝ,
      (∀ j < n, standing n a r.gmin ((r.gmax - r.gmin) / (n - 1)) (gridPoint r.gmin r.gmax n j) = bin1d m data r.gmin r.gmax n w j) ∧
      ∀ j < n, r.values j = max 0 (n / (x - y) * ∫ u, standing n a r.gmin ((r.gmax - r.gmin) / (n - 1)) (gridPoint r.gmin r.gmax n j - u)
        ∂(gaussianReal 0 (Real.toNNReal (width ^ 2)))) := by
  obtain ⟨lo, hi, t, hlo, hhi, hg, ht, hb, hv⟩ := isj_ok root data n m w r h
  obtain ⟨mlo, mhi, hle, hall, hw2, hw12, -⟩ := isj_grid data lo hi r.gmin r.gmax hlo hhi hg
  have ht0 := hroot _ _ _ ht
  have hR : 0 < hi - lo := by
    obtain ⟨x, hx, y, hy, hxy⟩ := hne
    linarith [(hall x hx).1, (hall y hy).2]
  have hn1 : (0 : ℝ) < (n : ℝ) - 1 := by
    have : (1 : ℝ) < n := by exact_mod_cast (by omega : 1 < n)
    linarith
  set dx := (r.gmax - r.gmin) / ((n : ℝ) - 1) with hdxd
  have hdx : 0 < dx := div_pos (by linarith) hn1
  have hndx : 2 * (hi - lo) < n * dx := by
    have h1 : ((n : ℝ) - 1) * dx = r.gmax - r.gmin := mul_div_cancel₀ _ hn1.ne'
    nlinarith
  obtain ⟨a, ha, hs⟩ := isj_is_smoothing n (bin1d m data r.gmin r.gmax n w) r.gmin dx (hi - lo) hdx.ne'
  have hsq := Real.sqrt_pos.2 ht0
  refine ⟨Real.sqrt t * (n * dx), ?_, ?_, hi, mhi, lo, mlo, a, ha, fun j hj => ?_⟩
  · rw [hb]; exact mul_pos hsq hR
  · rw [hb]
    calc 2 * (Real.sqrt t * (hi - lo)) = Real.sqrt t * (2 * (hi - lo)) := by ring
      _ < _ := mul_lt_mul_of_pos_left hndx hsq
  · rw [hv]
    dsimp only
    have hvar : Real.toNNReal ((Real.sqrt t * (n * dx)) ^ 2) = Real.toNNReal t * Real.toNNReal ((n * dx) ^ 2) := by
      rw [mul_pow, Real.sq_sqrt ht0.le, Real.toNNReal_mul ht0.le]
    rw [hvar]
    have h2 := hs (Real.toNNReal t) j hj
    rw [Real.coe_toNNReal t ht0.le] at h2
    rw [h2]
    rfl

/-! ## C230: units -/

/-- **C230.**  For samples whose range is at least 12 in both units, expressing the sample in another unit, `a y + b`, gives
the bandwidth, the grid and the density in that unit, for every search for the root, with and without weights.  Missing from
the full claim: narrower samples, for which the grid is not the one in the other unit (`isj_unit_violated`). -/
theorem isj_unit_partial (root : ℝ → (ℝ → ℝ) → Option ℝ) (a b : ℝ) (ha : 0 < a) (data : List ℝ) (n : ℕ) (m : Method) (w : Option (List ℝ))
    (hwide : ∃ x ∈ data, ∃ y ∈ data, 12 ≤ x - y ∧ 12 ≤ a * (x - y)) (r : Isj) (h : isj root data n m w = .ok r) :
    isj root (data.map fun y => a * y + b) n m w =
      .ok ⟨a * r.bandwidth, a * r.gmin + b, a * r.gmax + b, fun j => r.values j / a⟩ := by
  obtain ⟨lo, hi, t, hlo, hhi, hg, ht, hb, hv⟩ := isj_ok root data n m w r h
  obtain ⟨mlo, mhi, hle, hall, hw2, hw12, hzero⟩ := isj_grid data lo hi r.gmin r.gmax hlo hhi hg
  obtain ⟨x, hx, y, hy, h12, ha12⟩ := hwide
  have hxy : x - y ≤ hi - lo := by linarith [(hall x hx).2, (hall y hy).1]
  have hR : 12 ≤ hi - lo := by linarith
  have hR' : 12 ≤ a * (hi - lo) := le_trans ha12 (mul_le_mul_of_nonneg_left hxy ha.le)
  have hlo' : minimum (data.map fun y => a * y + b) = .ok (a * lo + b) := by
    rcases data with _ | ⟨c, l⟩
    · cases hlo
    · simp only [minimum, Except.ok.injEq] at hlo
      simp only [minimum, List.map_cons, fold_min_affine a b ha, hlo]
  have hhi' : maximum (data.map fun y => a * y + b) = .ok (a * hi + b) := by
    rcases data with _ | ⟨c, l⟩
    · cases hhi
    · simp only [maximum, Except.ok.injEq] at hhi
      simp only [maximum, List.map_cons, fold_max_affine a b ha, hhi]
  have hg' : gridEnds (data.map fun y => a * y + b) 6 (1 / 2) = .ok (a * r.gmin + b, a * r.gmax + b) := by
    have h0 := gridEnds_affine a b ha data (1 / 2)
    rw [hzero hR] at h0
    simp only [Except.map] at h0
    rw [← h0]
    simp only [gridEnds, hlo', hhi', bind, Except.bind]
    rw [max_eq_left (by nlinarith), max_eq_left (by nlinarith)]
  have hbin : bin1d m (data.map fun y => a * y + b) (a * r.gmin + b) (a * r.gmax + b) n w = bin1d m data r.gmin r.gmax n w :=
    funext fun j => bin1d_affine a b ha _ _ _ _ _ _ _
  have hded : (data.map fun y => a * y + b).dedup.length = data.dedup.length := by
    rw [List.dedup_map_of_injective, List.length_map]
    intro u v huv
    have : a * u = a * v := by simpa using huv
    exact mul_left_cancel₀ ha.ne' this
  unfold isj
  rw [hg', hlo', hhi']
  dsimp only
  rw [hbin, hded, ht]
  dsimp only
  have hrange : a * hi + b - (a * lo + b) = a * (hi - lo) := by ring
  rw [hrange, hv, hb]
  congr 2
  · ring
  · funext j
    have hraw : rawDensity n (bin1d m data r.gmin r.gmax n w) t (a * (hi - lo)) j = rawDensity n (bin1d m data r.gmin r.gmax n w) t (hi - lo) j / a := by
      unfold rawDensity
      rw [div_div]
      congr 1
      ring
    rw [hraw, ← max_div_div_right ha.le, zero_div]

/-- The hypotheses are met. -/
example : ∃ x ∈ [(0 : ℝ), 20], ∃ y ∈ [(0 : ℝ), 20], 12 ≤ x - y ∧ 12 ≤ 1000 * (x - y) :=
  ⟨20, by simp, 0, by simp, by norm_num, by norm_num⟩

/-- **C230 does not hold** for narrow samples: the margin of the grid is at least 6 in every unit. -/
theorem isj_unit_violated (root : ℝ → (ℝ → ℝ) → Option ℝ) (n : ℕ) (m : Method) (w : Option (List ℝ)) (r r' : Isj)
    (h : isj root [0, 1] n m w = .ok r) (h' : isj root ([0, 1].map fun y => 10 * y) n m w = .ok r') :
    r.gmin = -6 ∧ r'.gmin = -6 ∧ r.gmax = 7 ∧ r'.gmax = 16 := by
  obtain ⟨_, _, _, -, -, hg, -⟩ := isj_ok root _ n m w r h
  obtain ⟨_, _, _, -, -, hg', -⟩ := isj_ok root _ n m w r' h'
  simp only [gridEnds, minimum, maximum, bind, Except.bind, List.map_cons, List.map_nil, List.foldl_cons, List.foldl_nil,
    Except.ok.injEq, Prod.mk.injEq] at hg hg'
  rw [← hg.1, ← hg.2, ← hg'.1, ← hg'.2]
  norm_num

/-- **C230 does not hold** for narrow samples: the binned sample from which the bandwidth is found is another one in
another unit. -/
theorem isj_sample_violated : ∃ gmin gmax gmin' gmax' : ℚ, gridEnds [(0 : ℚ), 1] 6 (1 / 2) = .ok (gmin, gmax) ∧
    gridEnds ([(0 : ℚ), 1].map fun y => 10 * y) 6 (1 / 2) = .ok (gmin', gmax') ∧
    bin1d .linear [(0 : ℚ), 1] gmin gmax 14 none 6 ≠ bin1d .linear ([(0 : ℚ), 1].map fun y => 10 * y) gmin' gmax' 14 none 6 :=
  ⟨-6, 7, -6, 16, by decide +kernel, by decide +kernel, by decide +kernel⟩

/-! ## C231: adaptive bandwidths of weighted samples -/

/-- **C231 does not hold** for the exact KDEs: the bandwidths of a weighted sample have the same ratios whatever the weights
are, since the density that they are taken from is the one without the weights. -/
theorem adaptive_weights_violated (pilot : Option (List ℝ) → ℝ → ℝ) (data : List ℝ) (hp : ∀ x ∈ data, 0 < pilot none x) (w w' : Option (List ℝ))
    (rule : List ℝ → (ℝ → ℝ) → Option (List ℝ) → Option (List ℝ)) (hrule : rule = adaptiveGeom ∨ rule = adaptiveZfit ∨ rule = adaptiveStd)
    (h h' : List ℝ) (hh : adaptiveExact rule pilot data w = some h) (hh' : adaptiveExact rule pilot data w' = some h') :
    ∃ c c' : ℝ, h = data.map (fun x => c / Real.sqrt (pilot none x)) ∧ h' = data.map (fun x => c' / Real.sqrt (pilot none x)) := by
  have key : ∀ (w : Option (List ℝ)) (h : List ℝ), adaptiveExact rule pilot data w = some h →
      ∃ c : ℝ, h = data.map (fun x => c / Real.sqrt (pilot none x)) := by
    intro w h hh
    apply adaptive_inverse_root data (pilot none) hp w h
    unfold adaptiveExact at hh
    rcases hrule with rfl | rfl | rfl
    · exact .inl hh
    · exact .inr (.inl hh)
    · exact .inr (.inr hh)
  obtain ⟨c, hc⟩ := key w h hh
  obtain ⟨c', hc'⟩ := key w' h' hh'
  exact ⟨c, c', hc, hc'⟩

/-- **C231.**  On a grid the adaptive bandwidths are a constant divided by the root of the density of the weighted sample.
Missing from the full claim: the exact KDEs, for which it is false (`adaptive_weights_violated`); without weights it
holds for them too (`adaptive_unweighted_partial`). -/
theorem adaptive_grid_partial (pilot : Option (List ℝ) → ℝ → ℝ) (size : ℕ) (grid gridData : List ℝ) (w : Option (List ℝ))
    (hp : ∀ x ∈ grid, 0 < pilot w x) (rule : List ℝ → (ℝ → ℝ) → Option (List ℝ) → Option (List ℝ))
    (hrule : rule = adaptiveGeom ∨ rule = adaptiveZfit) (h : List ℝ) (hh : adaptiveGrid rule pilot size grid gridData w = some h) :
    ∃ c : ℝ, h = grid.map (fun x => c / Real.sqrt (pilot w x)) := by
  apply adaptive_inverse_root grid (pilot w) hp (some (gridData.map (· * (size : ℝ)))) h
  unfold adaptiveGrid at hh
  rcases hrule with rfl | rfl
  · exact .inl hh
  · exact .inr (.inl hh)

/-- **C231.**  Without weights the adaptive bandwidths of the exact KDEs are a constant divided by the root of the density
of the sample.  Missing from the full claim: samples with weights, for which it is false (`adaptive_weights_violated`). -/
theorem adaptive_unweighted_partial (pilot : Option (List ℝ) → ℝ → ℝ) (data : List ℝ) (hp : ∀ x ∈ data, 0 < pilot none x)
    (rule : List ℝ → (ℝ → ℝ) → Option (List ℝ) → Option (List ℝ)) (hrule : rule = adaptiveGeom ∨ rule = adaptiveZfit ∨ rule = adaptiveStd)
    (h : List ℝ) (hh : adaptiveExact rule pilot data none = some h) : ∃ c : ℝ, h = data.map (fun x => c / Real.sqrt (pilot none x)) := by
  obtain ⟨c, -, hc, -⟩ := adaptive_weights_violated pilot data hp none none rule hrule h h hh hh
  exact ⟨c, hc⟩

/-- The hypotheses are met: four events. -/
example : (adaptiveExact adaptiveGeom (fun _ x => 1 / (x + 1)) [0, 1, 2, 3] none).isSome ∧ ∀ x ∈ [(0 : ℝ), 1, 2, 3], 0 < 1 / (x + 1) := by
  constructor
  · simp [adaptiveExact, adaptiveGeom, minStdOrIqr, four_iqr.1]
  · intro x hx
    fin_cases hx <;> norm_num

end Zfit.Kde
