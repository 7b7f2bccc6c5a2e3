import Verif.Loss.Props
import Mathlib.Analysis.SpecialFunctions.Stirling

/-! How close the Poisson term of a likelihood is to the Poisson probability (C261). -/

namespace Zfit.Loss

open Filter Topology
open scoped Nat

/-- The negative logarithm of the Poisson probability of `n` for the mean `y`. -/
noncomputable def poissonNll (y : ℝ) (n : ℕ) : ℝ := -Real.log (Real.exp (-y) * y ^ n / n !)

theorem poissonNll_eq {y : ℝ} (hy : 0 < y) (n : ℕ) : poissonNll y n = y - n * Real.log y + Real.log (n !) := by
  unfold poissonNll
  have h1 : (n ! : ℝ) ≠ 0 := by exact_mod_cast Nat.factorial_ne_zero n
  have h2 : y ^ n ≠ 0 := pow_ne_zero _ hy.ne'
  rw [Real.log_div (mul_ne_zero (Real.exp_ne_zero _) h2) h1, Real.log_mul (Real.exp_ne_zero _) h2, Real.log_exp, Real.log_pow]
  ring

/-- How far the sequence is from its limit. -/
theorem log_stirlingSeq_upper (n : ℕ) (hn : 0 < n) : Real.log (Stirling.stirlingSeq n) ≤ Real.log √Real.pi + 1 / (12 * n) := by
  have hn' : (0 : ℝ) < n := by exact_mod_cast hn
  have step : ∀ k : ℕ, Real.log (Stirling.stirlingSeq n) - 1 / (12 * n) ≤
      Real.log (Stirling.stirlingSeq (n + k)) - 1 / (12 * ((n + k : ℕ) : ℝ)) := by
    intro k
    induction k with
    | zero => simp
    | succ k ih =>
      refine ih.trans ?_
      have h := Stirling.log_stirlingSeq_sdiff_le (n + k)
      have hm : (0 : ℝ) < ((n + k : ℕ) : ℝ) := by exact_mod_cast (by omega : 0 < n + k)
      have e : (1 : ℝ) / (12 * ((n + k : ℕ) : ℝ) * (((n + k : ℕ) : ℝ) + 1)) =
          1 / (12 * ((n + k : ℕ) : ℝ)) - 1 / (12 * ((n + (k + 1) : ℕ) : ℝ)) := by
        have : ((n + (k + 1) : ℕ) : ℝ) = ((n + k : ℕ) : ℝ) + 1 := by push_cast; ring
        rw [this]
        field_simp
        ring
      rw [e] at h
      rw [show n + (k + 1) = n + k + 1 by ring] at h ⊢
      linarith
  have lim1 : Tendsto (fun k : ℕ => Real.log (Stirling.stirlingSeq (n + k))) atTop (𝓝 (Real.log √Real.pi)) := by
    have h := (Stirling.tendsto_stirlingSeq_sqrt_pi.comp (tendsto_add_atTop_nat n)).log (by positivity)
    refine h.congr fun k => ?_
    simp only [Function.comp, Nat.add_comm]
  have hle := ge_of_tendsto' lim1 fun k => (show Real.log (Stirling.stirlingSeq n) - 1 / (12 * n) ≤
      Real.log (Stirling.stirlingSeq (n + k)) from (step k).trans (sub_le_self _ (by positivity)))
  linarith

/-- The constant is below the logarithm of the factorial, by at most `1 / (12 n)`; for no or one event it is exact. -/
theorem stirling_close (n : ℕ) :
    stirling n ≤ Real.log (n !) ∧ Real.log (n !) ≤ stirling n + 1 / (12 * n) ∧ (n ≤ 1 → stirling n = Real.log (n !)) := by
  by_cases h1 : n ≤ 1
  · have h0 : stirling n = 0 := by
      unfold stirling
      rw [if_pos ⟨Nat.cast_nonneg n, by exact_mod_cast h1⟩]
    have hl : Real.log (n !) = 0 := by
      interval_cases n <;> simp
    rw [h0, hl]
    exact ⟨le_refl _, by positivity, fun _ => rfl⟩
  · have hn : 0 < n := by omega
    have hn' : (0 : ℝ) < n := by exact_mod_cast hn
    have hs : stirling n = n * Real.log n - n + Real.log n / 2 + Real.log (2 * Real.pi) / 2 := by
      unfold stirling
      rw [if_neg (by
        rintro ⟨_, h⟩
        exact h1 (by exact_mod_cast h)), Real.log_mul (by positivity) hn'.ne']
      ring
    refine ⟨?_, ?_, fun h => absurd h h1⟩
    · rw [hs]
      exact Stirling.le_log_factorial_stirling (by omega)
    · have h := log_stirlingSeq_upper n hn
      rw [Stirling.log_stirlingSeq_formula, Real.log_sqrt Real.pi_pos.le, Real.log_div hn'.ne' (Real.exp_ne_zero _),
        Real.log_exp, Real.log_mul (by norm_num) hn'.ne'] at h
      rw [hs, Real.log_mul (by norm_num) Real.pi_pos.ne']
      linarith

/-- C261: the Poisson term with all constants, for a number of events `n` and the yield `y`, is at most the negative
logarithm of the Poisson probability, and less than it by at most `1 / (12 n)`; for no or one event it is equal. -/
theorem poisson_term_close (n : ℕ) {y : ℝ} (hy : 0 < y) :
    logPoissonLoss n (Real.log y) true ≤ poissonNll y n ∧
    poissonNll y n ≤ logPoissonLoss n (Real.log y) true + 1 / (12 * n) ∧
    (n ≤ 1 → logPoissonLoss n (Real.log y) true = poissonNll y n) := by
  obtain ⟨h1, h2, h3⟩ := stirling_close n
  rw [poissonNll_eq hy]
  unfold logPoissonLoss
  rw [Real.exp_log hy, if_pos rfl]
  refine ⟨by linarith, by linarith, fun h => ?_⟩
  rw [h3 h]
  ring

/-- C261: without the constants it differs from the negative logarithm of the probability by something that does not depend on
the yield. -/
theorem poisson_term_shift (n : ℕ) {y : ℝ} (hy : 0 < y) :
    logPoissonLoss n (Real.log y) false = poissonNll y n - Real.log (n !) := by
  rw [poissonNll_eq hy]
  unfold logPoissonLoss
  rw [Real.exp_log hy, if_neg (by decide)]
  ring

variable {Θ X : Type}

/-- C261: the extended likelihood is the likelihood times the Poisson probabilities of the numbers of events, up to at most
`1 / (12 n)` for each dataset. -/
theorem extended_nll_poisson (l l' : Loss Θ X) (hk : l.kind = .unbinnedNLL) (hl' : l' = { l with kind := .extendedUnbinnedNLL })
    (hp : l.Paired) (θ : Θ) (v : ℝ) (hv : l.HasValue θ v) (y : Fin l.data.length → Θ → ℝ)
    (hy : ∀ i : Fin l.data.length, (l.model[i.val]'(by rw [hp.1]; exact i.isLt)).yield = some (y i)) (hpos : ∀ i, 0 < y i θ)
    (n : Fin l.data.length → ℕ) (hn : ∀ i, l.data[i].samplesize = n i) :
    ∃ v', l'.HasValue θ v' ∧ v' ≤ v + ∑ i, poissonNll (y i θ) (n i) ∧
      v + ∑ i, poissonNll (y i θ) (n i) ≤ v' + ∑ i, 1 / (12 * (n i : ℝ)) := by
  refine ⟨_, extended_nll_value l l' hk hl' hp θ v hv y hy hpos, ?_, ?_⟩
  · apply add_le_add_right
    apply Finset.sum_le_sum
    intro i _
    rw [poissonNll_eq (hpos i), hn i]
    linarith [(stirling_close (n i)).1]
  · rw [add_assoc, ← Finset.sum_add_distrib]
    apply add_le_add_right
    apply Finset.sum_le_sum
    intro i _
    rw [poissonNll_eq (hpos i), hn i]
    linarith [(stirling_close (n i)).2.1]

/-- A case: ten events with the yield 8. -/
example : poissonNll 8 10 ≤ logPoissonLoss 10 (Real.log 8) true + 1 / 120 := by
  have := (poisson_term_close 10 (by norm_num : (0 : ℝ) < 8)).2.1
  norm_num at this ⊢
  exact this

end Zfit.Loss
