import Verif.Kde.IsjProps
import Mathlib.Analysis.Calculus.IteratedDeriv.Lemmas
import Mathlib.Analysis.SpecialFunctions.Integrals.Basic

/-!
# The equation for the bandwidth of Botev et al. (C295)

The specification: the smoothed density on the unit interval, its derivatives, and the formulas of Z. I. Botev, J. F. Grotowski and
D. P. Kroese, "Kernel density estimation via diffusion", Annals of Statistics 38 (2010) 2916, to which the code refers.
-/

namespace Zfit.Kde

open Real

/-- The sample on the unit interval, by its moments `c k` with `cos (k π x)`, smoothed for the time `t`. -/
noncomputable def wave (n : ℕ) (c : ℕ → ℝ) (t x : ℝ) : ℝ :=
  c 0 + 2 * ∑ k ∈ Finset.range (n - 1), c (k + 1) * exp (-((k + 1 : ℕ) : ℝ) ^ 2 * π ^ 2 * t / 2) * cos ((k + 1 : ℕ) * π * x)

/-- `‖f^(s)‖²`, the integral of the square of the `s`-th derivative. -/
noncomputable def normSq (n : ℕ) (c : ℕ → ℝ) (s : ℕ) (t : ℝ) : ℝ := ∫ x in (0 : ℝ)..1, iteratedDeriv s (wave n c t) x ^ 2

/-- The time for the `s`-th derivative, from `‖f^(s+1)‖²`. -/
noncomputable def paperTime (size : ℝ) (s : ℕ) (f : ℝ) : ℝ :=
  ((1 + 2 ^ (-((s : ℝ) + 1 / 2))) / 3 * (∏ i ∈ Finset.range s, (2 * (i : ℝ) + 1)) / (size * sqrt (π / 2) * f)) ^ (2 / (3 + 2 * (s : ℝ)))

/-- `‖f''‖²` by five steps from `‖f^(7)‖²` at the time `t`; `norm s t` is `‖f^(s)‖²` at the time `t`. -/
noncomputable def fiveSteps (norm : ℕ → ℝ → ℝ) (size t : ℝ) : ℝ :=
  let f6 := norm 6 (paperTime size 6 (norm 7 t))
  let f5 := norm 5 (paperTime size 5 f6)
  let f4 := norm 4 (paperTime size 4 f5)
  let f3 := norm 3 (paperTime size 3 f4)
  norm 2 (paperTime size 2 f3)

/-- The best time for a sample of `size` events. -/
noncomputable def bestTime (norm : ℕ → ℝ → ℝ) (size t : ℝ) : ℝ := (2 * size * sqrt π * fiveSteps norm size t) ^ (-2 / 5 : ℝ)

/-! ### Derivatives and integrals of waves -/

theorem iteratedDeriv_wave (n : ℕ) (c : ℕ → ℝ) (t : ℝ) (s : ℕ) :
    iteratedDeriv (s + 1) (wave n c t) = fun x => ∑ k ∈ Finset.range (n - 1),
      (2 * c (k + 1) * exp (-((k + 1 : ℕ) : ℝ) ^ 2 * π ^ 2 * t / 2) * ((k + 1 : ℕ) * π) ^ (s + 1)) *
        cos ((k + 1 : ℕ) * π * x + (s + 1) * (π / 2)) := by
  have base : ∀ (b : ℕ → ℝ) (w : ℕ → ℝ) (φ : ℝ) (m : ℕ) (x : ℝ), HasDerivAt (fun x => ∑ k ∈ Finset.range m, b k * cos (w k * x + φ))
      (∑ k ∈ Finset.range m, b k * w k * cos (w k * x + (φ + π / 2))) x := by
    intro b w φ m x
    apply HasDerivAt.fun_sum
    intro k _
    have h1 : HasDerivAt (fun x => w k * x + φ) (w k) x := by simpa using ((hasDerivAt_id x).const_mul (w k)).add_const φ
    have h2 := (h1.cos).const_mul (b k)
    refine h2.congr_deriv ?_
    rw [← add_assoc, cos_add_pi_div_two]
    ring
  induction s with
  | zero =>
    rw [iteratedDeriv_one]
    funext x
    have h := base (fun k => 2 * (c (k + 1) * exp (-((k + 1 : ℕ) : ℝ) ^ 2 * π ^ 2 * t / 2))) (fun k => (k + 1 : ℕ) * π) 0 (n - 1) x
    have h' := h.const_add (c 0)
    have hw : wave n c t = fun x => c 0 + ∑ k ∈ Finset.range (n - 1),
        2 * (c (k + 1) * exp (-((k + 1 : ℕ) : ℝ) ^ 2 * π ^ 2 * t / 2)) * cos ((k + 1 : ℕ) * π * x + 0) := by
      funext y
      simp only [wave, Finset.mul_sum, add_zero, mul_assoc]
    rw [hw, h'.deriv]
    apply Finset.sum_congr rfl
    intro k _
    simp only [Nat.cast_zero, zero_add, one_mul, pow_one]
    ring
  | succ s ih =>
    rw [iteratedDeriv_succ, ih]
    funext x
    have h := base (fun k => 2 * c (k + 1) * exp (-((k + 1 : ℕ) : ℝ) ^ 2 * π ^ 2 * t / 2) * ((k + 1 : ℕ) * π) ^ (s + 1))
      (fun k => (k + 1 : ℕ) * π) ((s + 1) * (π / 2)) (n - 1) x
    rw [h.deriv]
    apply Finset.sum_congr rfl
    intro k _
    have : ((s + 1 : ℕ) : ℝ) = s + 1 := by push_cast; ring
    rw [this, pow_succ _ (s + 1)]
    have h2 : ((s : ℝ) + 1) * (π / 2) + π / 2 = ((s : ℝ) + 1 + 1) * (π / 2) := by ring
    rw [h2]
    ring

theorem integral_wave (m q : ℤ) (hm : m ≠ 0) : ∫ x in (0 : ℝ)..1, cos (m * π * x + q * π) = 0 := by
  have hm' : (m : ℝ) * π ≠ 0 := mul_ne_zero (by exact_mod_cast hm) pi_ne_zero
  have h := intervalIntegral.integral_eq_sub_of_hasDerivAt (a := 0) (b := 1) (f := fun x => sin (m * π * x + q * π) / (m * π))
    (f' := fun x => cos (m * π * x + q * π)) (fun x _ => by
      have h1 : HasDerivAt (fun x : ℝ => m * π * x + q * π) (m * π) x := by
        simpa using ((hasDerivAt_id x).const_mul ((m : ℝ) * π)).add_const (q * π)
      have h2 := (h1.sin).div_const (m * π)
      exact h2.congr_deriv (mul_div_cancel_right₀ _ hm'))
    (Continuous.intervalIntegrable (by fun_prop) _ _)
  rw [h]
  have h1 : sin ((m : ℝ) * π * 1 + q * π) = 0 := by
    have : (m : ℝ) * π * 1 + q * π = ((m + q : ℤ) : ℝ) * π := by push_cast; ring
    rw [this, sin_int_mul_pi]
  have h2 : sin ((m : ℝ) * π * 0 + q * π) = 0 := by
    rw [mul_zero, zero_add, sin_int_mul_pi]
  rw [h1, h2, zero_div, sub_zero]

theorem integral_waves (j k : ℕ) (s : ℕ) :
    ∫ x in (0 : ℝ)..1, cos ((j + 1 : ℕ) * π * x + s * (π / 2)) * cos ((k + 1 : ℕ) * π * x + s * (π / 2)) = if j = k then 1 / 2 else 0 := by
  have hprod : ∀ x : ℝ, cos ((j + 1 : ℕ) * π * x + s * (π / 2)) * cos ((k + 1 : ℕ) * π * x + s * (π / 2)) =
      1 / 2 * cos (((j : ℤ) - k : ℤ) * π * x + (0 : ℤ) * π) + 1 / 2 * cos (((j : ℤ) + k + 2 : ℤ) * π * x + (s : ℤ) * π) := by
    intro x
    have h := cos_add_cos (((j : ℤ) - k : ℤ) * π * x + (0 : ℤ) * π) (((j : ℤ) + k + 2 : ℤ) * π * x + (s : ℤ) * π)
    rw [← mul_add, h]
    have e1 : ((((j : ℤ) - k : ℤ) : ℝ) * π * x + (0 : ℤ) * π + ((((j : ℤ) + k + 2 : ℤ) : ℝ) * π * x + (s : ℤ) * π)) / 2 =
        (j + 1 : ℕ) * π * x + s * (π / 2) := by push_cast; ring
    have e2 : ((((j : ℤ) - k : ℤ) : ℝ) * π * x + (0 : ℤ) * π - ((((j : ℤ) + k + 2 : ℤ) : ℝ) * π * x + (s : ℤ) * π)) / 2 =
        -((k + 1 : ℕ) * π * x + s * (π / 2)) := by push_cast; ring
    rw [e1, e2, cos_neg]
    ring
  simp only [hprod]
  rw [intervalIntegral.integral_add (Continuous.intervalIntegrable (by fun_prop) _ _) (Continuous.intervalIntegrable (by fun_prop) _ _),
    intervalIntegral.integral_const_mul, intervalIntegral.integral_const_mul, integral_wave _ _ (by omega : ((j : ℤ) + k + 2) ≠ 0)]
  by_cases hjk : j = k
  · subst hjk
    simp
  · rw [if_neg hjk, integral_wave _ _ (by omega : ((j : ℤ) - k) ≠ 0)]
    simp

/-- Plancherel for the derivatives of the smoothed sample. -/
theorem normSq_eq (n : ℕ) (c : ℕ → ℝ) (s : ℕ) (hs : 1 ≤ s) (t : ℝ) :
    normSq n c s t = 2 * π ^ (2 * s) * ∑ k ∈ Finset.range (n - 1),
      (((k + 1 : ℕ) : ℝ) ^ 2) ^ s * c (k + 1) ^ 2 * exp (-((k + 1 : ℕ) : ℝ) ^ 2 * π ^ 2 * t) := by
  obtain ⟨s, rfl⟩ : ∃ s', s = s' + 1 := ⟨s - 1, by omega⟩
  unfold normSq
  rw [iteratedDeriv_wave]
  set b : ℕ → ℝ := fun k => 2 * c (k + 1) * exp (-((k + 1 : ℕ) : ℝ) ^ 2 * π ^ 2 * t / 2) * ((k + 1 : ℕ) * π) ^ (s + 1) with hb
  have hsq : ∀ x : ℝ, (∑ k ∈ Finset.range (n - 1), b k * cos ((k + 1 : ℕ) * π * x + (s + 1) * (π / 2))) ^ 2 =
      ∑ j ∈ Finset.range (n - 1), ∑ k ∈ Finset.range (n - 1), b j * b k *
        (cos ((j + 1 : ℕ) * π * x + (s + 1 : ℕ) * (π / 2)) * cos ((k + 1 : ℕ) * π * x + (s + 1 : ℕ) * (π / 2))) := by
    intro x
    rw [sq, Finset.sum_mul_sum]
    apply Finset.sum_congr rfl
    intro j _
    apply Finset.sum_congr rfl
    intro k _
    push_cast
    ring
  have hint : ∫ x in (0 : ℝ)..1, (∑ k ∈ Finset.range (n - 1), b k * cos ((k + 1 : ℕ) * π * x + (s + 1) * (π / 2))) ^ 2 =
      ∑ j ∈ Finset.range (n - 1), ∑ k ∈ Finset.range (n - 1), b j * b k * (if j = k then 1 / 2 else 0) := by
    simp only [hsq]
    rw [intervalIntegral.integral_finset_sum (fun j _ => Continuous.intervalIntegrable (by fun_prop) _ _)]
    apply Finset.sum_congr rfl
    intro j _
    rw [intervalIntegral.integral_finset_sum (fun k _ => Continuous.intervalIntegrable (by fun_prop) _ _)]
    apply Finset.sum_congr rfl
    intro k _
    rw [intervalIntegral.integral_const_mul, integral_waves]
  rw [hint, Finset.mul_sum]
  apply Finset.sum_congr rfl
  intro j hj
  rw [Finset.sum_eq_single j (fun k _ hk => by rw [if_neg (Ne.symm hk), mul_zero]) (fun h => absurd hj h), if_pos rfl]
  have he : exp (-((j + 1 : ℕ) : ℝ) ^ 2 * π ^ 2 * t) = exp (-((j + 1 : ℕ) : ℝ) ^ 2 * π ^ 2 * t / 2) ^ 2 := by
    rw [← Real.exp_nat_mul]
    congr 1
    push_cast
    ring
  rw [he, hb]
  dsimp only
  rw [mul_pow _ π (s + 1), show π ^ (2 * (s + 1)) = (π ^ (s + 1)) ^ 2 by rw [mul_comm, pow_mul],
    show (((j + 1 : ℕ) : ℝ) ^ 2) ^ (s + 1) = (((j + 1 : ℕ) : ℝ) ^ (s + 1)) ^ 2 by rw [← pow_mul, ← pow_mul, mul_comm]]
  ring

/-- The sum of the code is a quarter of the norm of the derivative. -/
theorem derivativeNorm_quarter (n : ℕ) (c : ℕ → ℝ) (s : ℕ) (hs : 1 ≤ s) (t : ℝ) :
    derivativeNorm n (fun k => c k ^ 2) s t = normSq n c s t / 4 := by
  rw [normSq_eq n c s hs t]
  unfold derivativeNorm
  ring

theorem calcF_time (n : ℕ) (c : ℕ → ℝ) (size : ℝ) (s : ℕ) (hs : 1 ≤ s) (f : ℝ) :
    calcF n (fun k => c k ^ 2) size s f = normSq n c s (paperTime size s f) / 4 := by
  rw [← derivativeNorm_quarter n c s hs]
  unfold calcF
  dsimp only
  congr 1
  unfold paperTime
  congr 1
  have hodd : ((List.range s).map fun i => (2 * (i : ℝ) + 1)).prod = ∏ i ∈ Finset.range s, (2 * (i : ℝ) + 1) := by
    clear hs
    induction s with
    | zero => simp
    | succ s ih =>
      rw [Finset.prod_range_succ, ← ih]
      simp [List.range_succ]
  have hhalf : (1 / 2 : ℝ) ^ ((s : ℝ) + 1 / 2) = 2 ^ (-((s : ℝ) + 1 / 2)) := by
    rw [one_div, Real.inv_rpow (by norm_num), Real.rpow_neg (by norm_num)]
  have hroot : sqrt (2 * π) = 2 * sqrt (π / 2) := by
    rw [show 2 * π = 2 ^ 2 * (π / 2) by ring, Real.sqrt_mul (by norm_num), Real.sqrt_sq (by norm_num)]
  rw [hodd, hhalf, hroot]
  have hp : sqrt (π / 2) ≠ 0 := (Real.sqrt_pos.2 (by positivity)).ne'
  generalize sqrt (π / 2) = r at hp ⊢
  generalize (1 + (2 : ℝ) ^ (-((s : ℝ) + 1 / 2))) / 3 = a
  generalize (∏ i ∈ Finset.range s, (2 * (i : ℝ) + 1)) = o
  rw [show 2 * a * (o / (2 * r)) = a * o / r by field_simp, div_div]
  congr 1
  ring

/-- Missing from the full claim: the norms are four times too small (`isj_norm_violated`), which makes the time too long
(`isj_time_violated`, `isj_root_violated`).
C295: the function whose root the code looks for is the time minus the best time of the paper in five steps, for the squares of the
coefficients of the cosine transform, if each norm of a derivative is divided by four. -/
theorem isj_equation_partial (n : ℕ) (x : ℕ → ℝ) (size t : ℝ) :
    fixedPoint n (fun k => dct n x k ^ 2 / 4) size t =
      t - bestTime (fun s t => normSq n (fun k => dct n x k / 2) s t / 4) size t := by
  have hd : (fun k => dct n x k ^ 2 / 4) = fun k => (dct n x k / 2) ^ 2 := by
    funext k
    ring
  rw [hd]
  unfold fixedPoint bestTime fiveSteps
  simp only [List.foldl_cons, List.foldl_nil]
  rw [derivativeNorm_quarter _ _ _ (by norm_num), calcF_time _ _ _ _ (by norm_num), calcF_time _ _ _ _ (by norm_num),
    calcF_time _ _ _ _ (by norm_num), calcF_time _ _ _ _ (by norm_num), calcF_time _ _ _ _ (by norm_num)]
  congr 2
  ring

/-- The smoothed density on the grid of the code, times the range of the sample, is the wave. -/
theorem density_is_wave (n : ℕ) (x : ℕ → ℝ) (t range : ℝ) (j : ℕ) :
    rawDensity n x t range j = wave n (fun k => dct n x k / 2) t ((2 * j + 1) / (2 * n)) / range := by
  unfold rawDensity idct wave
  simp only [Nat.cast_zero, ne_eq, OfNat.ofNat_ne_zero, not_false_eq_true, zero_pow, neg_zero, zero_mul, zero_div, exp_zero, mul_one]
  have : ∀ k : ℕ, dct n x (k + 1) * exp (-((k + 1 : ℕ) : ℝ) ^ 2 * π ^ 2 * t / 2) * cos (π * (k + 1 : ℕ) * (2 * j + 1) / (2 * n)) =
      2 * (dct n x (k + 1) / 2 * exp (-((k + 1 : ℕ) : ℝ) ^ 2 * π ^ 2 * t / 2) * cos ((k + 1 : ℕ) * π * ((2 * j + 1) / (2 * n)))) := by
    intro k
    rw [show π * (k + 1 : ℕ) * (2 * (j : ℝ) + 1) / (2 * n) = (k + 1 : ℕ) * π * ((2 * j + 1) / (2 * n)) by ring]
    ring
  simp only [this, ← Finset.mul_sum]
  rw [mul_comm 2 range, ← div_div, div_right_comm]
  congr 1
  ring

theorem normSq_pos (n : ℕ) (c : ℕ → ℝ) (hc : ∃ k, 1 ≤ k ∧ k < n ∧ c k ≠ 0) (s : ℕ) (hs : 1 ≤ s) (t : ℝ) : 0 < normSq n c s t := by
  rw [normSq_eq n c s hs t]
  obtain ⟨k, hk1, hkn, hk⟩ := hc
  obtain ⟨k, rfl⟩ : ∃ k', k = k' + 1 := ⟨k - 1, by omega⟩
  refine mul_pos (by positivity) (Finset.sum_pos' (fun i _ => by positivity) ⟨k, by simp; omega, ?_⟩)
  have : 0 < c (k + 1) ^ 2 := by positivity
  positivity

theorem normSq_antitone (n : ℕ) (c : ℕ → ℝ) (s : ℕ) (hs : 1 ≤ s) {t t' : ℝ} (h : t ≤ t') : normSq n c s t' ≤ normSq n c s t := by
  rw [normSq_eq n c s hs, normSq_eq n c s hs]
  refine mul_le_mul_of_nonneg_left (Finset.sum_le_sum fun k _ => ?_) (by positivity)
  refine mul_le_mul_of_nonneg_left (Real.exp_le_exp.2 ?_) (by positivity)
  have : 0 ≤ ((k + 1 : ℕ) : ℝ) ^ 2 * π ^ 2 := by positivity
  nlinarith

theorem paperTime_antitone (size : ℝ) (hsize : 0 < size) (s : ℕ) {f f' : ℝ} (hf : 0 < f) (h : f ≤ f') :
    paperTime size s f' ≤ paperTime size s f := by
  unfold paperTime
  have hr : 0 < sqrt (π / 2) := Real.sqrt_pos.2 (by positivity)
  have hA : 0 ≤ (1 + (2 : ℝ) ^ (-((s : ℝ) + 1 / 2))) / 3 * (∏ i ∈ Finset.range s, (2 * (i : ℝ) + 1)) := by
    have : 0 ≤ ∏ i ∈ Finset.range s, (2 * (i : ℝ) + 1) := Finset.prod_nonneg fun i _ => by positivity
    positivity
  have hd : 0 < size * sqrt (π / 2) * f := by positivity
  refine Real.rpow_le_rpow (div_nonneg hA (le_trans hd.le ?_)) ?_ (by positivity)
  · exact mul_le_mul_of_nonneg_left h (by positivity)
  · exact div_le_div_of_nonneg_left hA hd (mul_le_mul_of_nonneg_left h (by positivity))

/-- One step: a norm that is at most a quarter of the right one gives a norm that is at most a quarter of the right one. -/
theorem step_quarter (n : ℕ) (c : ℕ → ℝ) (size : ℝ) (hsize : 0 < size) (s : ℕ) (hs : 1 ≤ s) {f g : ℝ} (hf : 0 < f) (h : f ≤ g / 4) :
    normSq n c s (paperTime size s f) / 4 ≤ normSq n c s (paperTime size s g) / 4 := by
  have : paperTime size s g ≤ paperTime size s f := paperTime_antitone size hsize s hf (by linarith)
  linarith [normSq_antitone n c s hs this]

theorem fiveSteps_quarter (n : ℕ) (c : ℕ → ℝ) (hc : ∃ k, 1 ≤ k ∧ k < n ∧ c k ≠ 0) (size : ℝ) (hsize : 0 < size) (t : ℝ) :
    0 < fiveSteps (fun s t => normSq n c s t / 4) size t ∧
      fiveSteps (fun s t => normSq n c s t / 4) size t ≤ fiveSteps (normSq n c) size t / 4 := by
  have pos : ∀ s, 1 ≤ s → ∀ t, 0 < normSq n c s t / 4 := fun s hs t => by
    have := normSq_pos n c hc s hs t
    linarith
  unfold fiveSteps
  dsimp only
  refine ⟨pos 2 (by norm_num) _, ?_⟩
  refine step_quarter n c size hsize 2 (by norm_num) (pos 3 (by norm_num) _) ?_
  refine step_quarter n c size hsize 3 (by norm_num) (pos 4 (by norm_num) _) ?_
  refine step_quarter n c size hsize 4 (by norm_num) (pos 5 (by norm_num) _) ?_
  refine step_quarter n c size hsize 5 (by norm_num) (pos 6 (by norm_num) _) ?_
  exact step_quarter n c size hsize 6 (by norm_num) (pos 7 (by norm_num) _) le_rfl

/-- Violation of C295: the sum that stands for the norm of a derivative is too small by a factor of four (the coefficients of the cosine
transform are halved, and the sum is multiplied by one half instead of two). -/
theorem isj_norm_violated (n : ℕ) (x : ℕ → ℝ) (hx : ∃ k, 1 ≤ k ∧ k < n ∧ dct n x k ≠ 0) (s : ℕ) (hs : 1 ≤ s) (t : ℝ) :
    4 * derivativeNorm n (fun k => dct n x k ^ 2 / 4) s t = normSq n (fun k => dct n x k / 2) s t ∧
      derivativeNorm n (fun k => dct n x k ^ 2 / 4) s t < normSq n (fun k => dct n x k / 2) s t := by
  have hd : (fun k => dct n x k ^ 2 / 4) = fun k => (dct n x k / 2) ^ 2 := by
    funext k
    ring
  rw [hd, derivativeNorm_quarter n _ s hs t]
  have := normSq_pos n (fun k => dct n x k / 2) (by
    obtain ⟨k, h1, h2, h3⟩ := hx
    exact ⟨k, h1, h2, by simpa using h3⟩) s hs t
  constructor <;> linarith

/-- Violation of C295: at every time, what the code takes for the best time is at least 4^(2/5) > 1.7 times that of the paper. -/
theorem isj_time_violated (n : ℕ) (x : ℕ → ℝ) (hx : ∃ k, 1 ≤ k ∧ k < n ∧ dct n x k ≠ 0) (size : ℝ) (hsize : 0 < size) (t : ℝ) :
    (4 : ℝ) ^ (2 / 5 : ℝ) * bestTime (normSq n (fun k => dct n x k / 2)) size t ≤
      t - fixedPoint n (fun k => dct n x k ^ 2 / 4) size t ∧ 0 < bestTime (normSq n (fun k => dct n x k / 2)) size t := by
  rw [isj_equation_partial, sub_sub_cancel]
  obtain ⟨h1, h2⟩ := fiveSteps_quarter n (fun k => dct n x k / 2) (by
    obtain ⟨k, h1, h2, h3⟩ := hx
    exact ⟨k, h1, h2, by simpa using h3⟩) size hsize t
  unfold bestTime
  set f := fiveSteps (fun s t => normSq n (fun k => dct n x k / 2) s t / 4) size t
  set g := fiveSteps (normSq n (fun k => dct n x k / 2)) size t
  have hg : 0 < g := by linarith
  have hpi : 0 < sqrt π := Real.sqrt_pos.2 pi_pos
  refine ⟨?_, by positivity⟩
  have hle : 2 * size * sqrt π * f ≤ 2 * size * sqrt π * g / 4 := by
    rw [mul_div_assoc]
    exact mul_le_mul_of_nonneg_left h2 (by positivity)
  calc (4 : ℝ) ^ (2 / 5 : ℝ) * (2 * size * sqrt π * g) ^ (-2 / 5 : ℝ) = (2 * size * sqrt π * g / 4) ^ (-2 / 5 : ℝ) := by
        rw [Real.div_rpow (by positivity) (by norm_num), neg_div, Real.rpow_neg (by norm_num : (0 : ℝ) ≤ 4), div_inv_eq_mul, mul_comm]
    _ ≤ (2 * size * sqrt π * f) ^ (-2 / 5 : ℝ) := Real.rpow_le_rpow_of_nonpos (by positivity) hle (by norm_num)

/-- Violation of C295: a root of the code is never a solution of the equation of the paper, whose best time is shorter. -/
theorem isj_root_violated (n : ℕ) (x : ℕ → ℝ) (hx : ∃ k, 1 ≤ k ∧ k < n ∧ dct n x k ≠ 0) (size : ℝ) (hsize : 0 < size) (t : ℝ)
    (ht : fixedPoint n (fun k => dct n x k ^ 2 / 4) size t = 0) : bestTime (normSq n (fun k => dct n x k / 2)) size t < t := by
  obtain ⟨h1, h2⟩ := isj_time_violated n x hx size hsize t
  rw [ht, sub_zero] at h1
  have h4 : (1 : ℝ) < 4 ^ (2 / 5 : ℝ) := Real.one_lt_rpow (by norm_num) (by norm_num)
  nlinarith

/-- Two grid points with different contents meet the hypothesis. -/
example : ∃ k, 1 ≤ k ∧ k < 2 ∧ dct 2 (fun j => if j = 0 then 1 else 0) k ≠ 0 := by
  refine ⟨1, le_rfl, by norm_num, ?_⟩
  have : cos (π * 1 * (2 * 0 + 1) / (2 * 2)) ≠ 0 := by
    rw [show π * 1 * (2 * 0 + 1) / (2 * 2) = π / 4 by ring, cos_pi_div_four]
    positivity
  simpa [dct, Finset.sum_range_succ] using this

theorem normSq_continuous (n : ℕ) (c : ℕ → ℝ) (s : ℕ) (hs : 1 ≤ s) : Continuous (normSq n c s) := by
  have : normSq n c s = _ := funext fun t => normSq_eq n c s hs t
  rw [this]
  fun_prop

theorem paperTime_continuousOn (size : ℝ) (hsize : 0 < size) (s : ℕ) {g : ℝ → ℝ} (hg : Continuous g) (hpos : ∀ t, 0 < g t) :
    Continuous fun t => paperTime size s (g t) := by
  unfold paperTime
  have hr : 0 < sqrt (π / 2) := Real.sqrt_pos.2 (by positivity)
  refine Continuous.rpow_const ?_ fun t => Or.inr (by positivity)
  refine Continuous.div₀ (by fun_prop) (by fun_prop) fun t => ?_
  have := hpos t
  positivity

/-- A norm that is at least `m` gives a time of at most 1 if there are at least `10395 / m` events. -/
theorem paperTime_le_one (m : ℝ) (hm : 0 < m) (s : ℕ) (hs : s ≤ 6) {f : ℝ} (h : m ≤ f) : paperTime (10395 / m) s f ≤ 1 := by
  unfold paperTime
  have hr : 1 ≤ sqrt (π / 2) := Real.one_le_sqrt.2 (by linarith [two_le_pi])
  have hp : (∏ i ∈ Finset.range s, (2 * (i : ℝ) + 1)) ≤ 10395 ∧ 0 ≤ ∏ i ∈ Finset.range s, (2 * (i : ℝ) + 1) := by
    constructor
    · interval_cases s <;> norm_num [Finset.prod_range_succ]
    · exact Finset.prod_nonneg fun i _ => by positivity
  have h2 : (2 : ℝ) ^ (-((s : ℝ) + 1 / 2)) ≤ 1 := Real.rpow_le_one_of_one_le_of_nonpos (by norm_num) (by
    have : (0 : ℝ) ≤ s := by positivity
    linarith)
  have h2' : (0 : ℝ) ≤ (2 : ℝ) ^ (-((s : ℝ) + 1 / 2)) := by positivity
  have hden : 10395 ≤ 10395 / m * sqrt (π / 2) * f := by
    have : (1 : ℝ) ≤ sqrt (π / 2) * (f / m) := by
      have : 1 ≤ f / m := (one_le_div hm).2 h
      nlinarith
    calc (10395 : ℝ) ≤ 10395 * (sqrt (π / 2) * (f / m)) := by linarith
      _ = 10395 / m * sqrt (π / 2) * f := by ring
  have hnum : 0 ≤ (1 + (2 : ℝ) ^ (-((s : ℝ) + 1 / 2))) / 3 * (∏ i ∈ Finset.range s, (2 * (i : ℝ) + 1)) :=
    mul_nonneg (by positivity) hp.2
  refine Real.rpow_le_one (div_nonneg hnum (by linarith)) ((div_le_one (by linarith)).2 ?_) (by positivity)
  nlinarith [hp.1, hp.2]

/-- Whatever the sample, the code has a root if it has enough events: the hypotheses of `isj_root_violated` can be met. -/
theorem isj_root_exists (n : ℕ) (x : ℕ → ℝ) (hx : ∃ k, 1 ≤ k ∧ k < n ∧ dct n x k ≠ 0) :
    ∃ size t : ℝ, 0 < size ∧ fixedPoint n (fun k => dct n x k ^ 2 / 4) size t = 0 := by
  set c : ℕ → ℝ := fun k => dct n x k / 2 with hcdef
  have hc : ∃ k, 1 ≤ k ∧ k < n ∧ c k ≠ 0 := by
    obtain ⟨k, h1, h2, h3⟩ := hx
    exact ⟨k, h1, h2, by simpa [hcdef] using h3⟩
  have pos : ∀ s, 1 ≤ s → ∀ t, 0 < normSq n c s t / 4 := fun s hs t => by
    have := normSq_pos n c hc s hs t
    linarith
  obtain ⟨m, hm, hle⟩ : ∃ m, 0 < m ∧ ∀ s ∈ [2, 3, 4, 5, 6, 7], m ≤ normSq n c s 1 / 4 := by
    have : ∀ l : List ℕ, (∀ s ∈ l, 1 ≤ s) → ∃ m, 0 < m ∧ ∀ s ∈ l, m ≤ normSq n c s 1 / 4 := by
      intro l
      induction l with
      | nil => exact fun _ => ⟨1, one_pos, by simp⟩
      | cons a l ih =>
        intro hl
        obtain ⟨m, hm, h⟩ := ih fun s hs => hl s (List.mem_cons_of_mem _ hs)
        refine ⟨min m (normSq n c a 1 / 4), lt_min hm (pos a (hl a (by simp)) 1), fun s hs => ?_⟩
        rcases List.mem_cons.1 hs with rfl | hs
        · exact min_le_right _ _
        · exact le_trans (min_le_left _ _) (h s hs)
    exact this _ (by simp)
  have hsize : 0 < 10395 / m := by positivity
  refine ⟨10395 / m, ?_⟩
  have hcont : Continuous fun t => t - bestTime (fun s t => normSq n c s t / 4) (10395 / m) t := by
    have ncont : ∀ s, 1 ≤ s → Continuous fun t => normSq n c s t / 4 := fun s hs => (normSq_continuous n c s hs).div_const 4
    have step : ∀ (s : ℕ), 1 ≤ s → ∀ g : ℝ → ℝ, Continuous g → (∀ t, 0 < g t) →
        Continuous fun t => normSq n c s (paperTime (10395 / m) s (g t)) / 4 :=
      fun s hs g hg hp => (ncont s hs).comp (paperTime_continuousOn _ hsize s hg hp)
    unfold bestTime fiveSteps
    dsimp only
    refine continuous_id.sub (Continuous.rpow_const (continuous_const.mul ?_) fun t => Or.inl ?_)
    · exact step 2 (by norm_num) _ (step 3 (by norm_num) _ (step 4 (by norm_num) _ (step 5 (by norm_num) _ (step 6 (by norm_num) _
        (ncont 7 (by norm_num)) (pos 7 (by norm_num))) fun t => pos 6 (by norm_num) _) fun t => pos 5 (by norm_num) _)
        fun t => pos 4 (by norm_num) _) fun t => pos 3 (by norm_num) _
    · have := pos 2 (by norm_num) (paperTime (10395 / m) 2 (normSq n c 3 (paperTime (10395 / m) 3 (normSq n c 4 (paperTime (10395 / m) 4
        (normSq n c 5 (paperTime (10395 / m) 5 (normSq n c 6 (paperTime (10395 / m) 6 (normSq n c 7 t / 4)) / 4)) / 4)) / 4)) / 4))
      have hpi : 0 < sqrt π := Real.sqrt_pos.2 pi_pos
      positivity
  have h0 : (0 : ℝ) - bestTime (fun s t => normSq n c s t / 4) (10395 / m) 0 ≤ 0 := by
    have : 0 ≤ bestTime (fun s t => normSq n c s t / 4) (10395 / m) 0 := by
      have := (fiveSteps_quarter n c hc _ hsize 0).1
      unfold bestTime
      positivity
    linarith
  have h1 : 0 ≤ (1 : ℝ) - bestTime (fun s t => normSq n c s t / 4) (10395 / m) 1 := by
    have stage : ∀ s ∈ [2, 3, 4, 5, 6], ∀ f, m ≤ f → m ≤ normSq n c s (paperTime (10395 / m) s f) / 4 := by
      intro s hs f hf
      have h6 : s ≤ 6 ∧ 1 ≤ s ∧ s ∈ [2, 3, 4, 5, 6, 7] := by
        simp only [List.mem_cons, List.not_mem_nil, or_false] at hs ⊢
        omega
      have := normSq_antitone n c s h6.2.1 (paperTime_le_one m hm s h6.1 hf)
      linarith [hle s h6.2.2]
    have : m ≤ fiveSteps (fun s t => normSq n c s t / 4) (10395 / m) 1 := by
      unfold fiveSteps
      exact stage 2 (by simp) _ (stage 3 (by simp) _ (stage 4 (by simp) _ (stage 5 (by simp) _ (stage 6 (by simp) _ (hle 7 (by simp))))))
    have hpi : 1 ≤ sqrt π := Real.one_le_sqrt.2 (by linarith [two_le_pi])
    have hbig : 1 ≤ 2 * (10395 / m) * sqrt π * fiveSteps (fun s t => normSq n c s t / 4) (10395 / m) 1 := by
      have h3 : 10395 ≤ 10395 / m * fiveSteps (fun s t => normSq n c s t / 4) (10395 / m) 1 := by
        rw [div_mul_eq_mul_div, le_div_iff₀ hm]
        linarith
      nlinarith
    have : bestTime (fun s t => normSq n c s t / 4) (10395 / m) 1 ≤ 1 :=
      Real.rpow_le_one_of_one_le_of_nonpos hbig (by norm_num)
    linarith
  obtain ⟨t, -, ht⟩ := intermediate_value_Icc (zero_le_one' ℝ) hcont.continuousOn ⟨h0, h1⟩
  exact ⟨t, hsize, by rw [isj_equation_partial]; exact ht⟩

end Zfit.Kde
