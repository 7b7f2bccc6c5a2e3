import Verif.BinPdf.DrawModel
import Mathlib.Data.Nat.Choose.Multinomial

/-! Counting independent draws: the multinomial distribution, and its mixture with a Poisson number of draws. -/

namespace Zfit.BinPdf

open ProbabilityTheory MeasureTheory
open scoped NNReal ENNReal

variable {ι : Type} [Fintype ι] [DecidableEq ι]

theorem map_add_single (q : PMF (ι → ℕ)) (i : ι) (m : ι → ℕ) :
    (q.map fun m => m + Pi.single i 1) m = if 0 < m i then q (m - Pi.single i 1) else 0 := by
  rw [PMF.map_apply]
  split
  · rename_i h
    rw [tsum_eq_single (m - Pi.single i 1)]
    · rw [if_pos]
      funext j
      by_cases hj : j = i
      · subst hj; simp; omega
      · simp [hj]
    · intro m' hm'
      rw [if_neg]
      rintro rfl
      apply hm'
      funext j
      simp
  · rename_i h
    rw [ENNReal.tsum_eq_zero]
    intro m'
    rw [if_neg]
    rintro rfl
    apply h
    simp

/-- n! / ∏ m! ∏ p^m -/
noncomputable def multiProb (p : ι → ℝ) (m : ι → ℕ) : ℝ := (∑ i, m i).factorial / (∏ i, ((m i).factorial : ℝ)) * ∏ i, p i ^ m i

theorem sum_sub_single (m : ι → ℕ) (i : ι) (hi : 0 < m i) : ∑ j, (m - Pi.single i 1 : ι → ℕ) j + 1 = ∑ j, m j := by
  have h : m = (m - Pi.single i 1) + Pi.single i 1 := by
    funext j
    by_cases hj : j = i
    · subst hj; simp; omega
    · simp [hj]
  conv_rhs => rw [h]
  simp only [Pi.add_apply, Finset.sum_add_distrib, Finset.sum_pi_single', Finset.mem_univ, if_true]

theorem multiProb_step (p : ι → ℝ) (m : ι → ℕ) (i : ι) (hi : 0 < m i) :
    p i * multiProb p (m - Pi.single i 1) = (m i / (∑ j, m j : ℕ) : ℝ) * multiProb p m := by
  have hs := sum_sub_single m i hi
  have h1 : m i = (m - Pi.single i 1 : ι → ℕ) i + 1 := by simp; omega
  have h2 : ∀ j, j ≠ i → m j = (m - Pi.single i 1 : ι → ℕ) j := fun j hj => by simp [hj]
  generalize (m - Pi.single i 1 : ι → ℕ) = m' at hs h1 h2
  have hfac : ∏ j, ((m j).factorial : ℝ) = m i * ∏ j, ((m' j).factorial : ℝ) := by
    rw [← Finset.mul_prod_erase _ _ (Finset.mem_univ i), ← Finset.mul_prod_erase (f := fun j => ((m' j).factorial : ℝ)) _ (Finset.mem_univ i),
      h1, Nat.factorial_succ]
    push_cast
    rw [mul_assoc]
    congr 2
    exact Finset.prod_congr rfl fun j hj => by rw [h2 j (Finset.ne_of_mem_erase hj)]
  have hpow : ∏ j, p j ^ m j = p i * ∏ j, p j ^ m' j := by
    rw [← Finset.mul_prod_erase _ _ (Finset.mem_univ i), ← Finset.mul_prod_erase (f := fun j => p j ^ m' j) _ (Finset.mem_univ i),
      h1, pow_succ', mul_assoc]
    congr 2
    exact Finset.prod_congr rfl fun j hj => by rw [h2 j (Finset.ne_of_mem_erase hj)]
  unfold multiProb
  rw [hfac, hpow, ← hs, Nat.factorial_succ]
  have h3 : (0 : ℝ) < ∏ j, ((m' j).factorial : ℝ) := Finset.prod_pos fun j _ => by positivity
  have h4 : (0 : ℝ) < m i := by exact_mod_cast hi
  push_cast
  field_simp

theorem multiProb_nonneg {p : ι → ℝ} (hp : ∀ i, 0 ≤ p i) (m : ι → ℕ) : 0 ≤ multiProb p m := by
  unfold multiProb
  have : 0 ≤ ∏ i, p i ^ m i := Finset.prod_nonneg fun i _ => pow_nonneg (hp i) _
  positivity

/-- Counting draws gives the multinomial distribution. -/
theorem draws_law (q : PMF ι) (p : ι → ℝ) (hp : ∀ i, 0 ≤ p i) (hq : ∀ i, q i = ENNReal.ofReal (p i)) (n : ℕ) :
    IsMultinomialLaw n p (draws q n) := by
  have key : ∀ n m, draws q n m = if ∑ i, m i = n then ENNReal.ofReal (multiProb p m) else 0 := by
    intro n
    induction n with
    | zero =>
      intro m
      simp only [draws, PMF.pure_apply]
      by_cases h : m = 0
      · subst h
        simp [multiProb]
      · rw [if_neg h, if_neg]
        intro h0
        apply h
        funext i
        exact (Finset.sum_eq_zero_iff.1 h0) i (Finset.mem_univ _)
    | succ n ih =>
      intro m
      simp only [draws, PMF.bind_apply, map_add_single, tsum_fintype]
      by_cases hm : ∑ i, m i = n + 1
      · rw [if_pos hm]
        have hterm : ∀ i, q i * (if 0 < m i then draws q n (m - Pi.single i 1) else 0) =
            ENNReal.ofReal ((m i / (∑ j, m j : ℕ) : ℝ) * multiProb p m) := by
          intro i
          split
          · rename_i hi
            have := sum_sub_single m i hi
            rw [ih, if_pos (by omega), hq, ← ENNReal.ofReal_mul (hp i), multiProb_step p m i hi]
          · rename_i hi
            have : m i = 0 := by omega
            simp [this]
        rw [Finset.sum_congr rfl fun i _ => hterm i, ← ENNReal.ofReal_sum_of_nonneg, ← Finset.sum_mul, ← Finset.sum_div]
        · rw [← Nat.cast_sum, div_self (by rw [hm]; positivity), one_mul]
        · intro i _
          exact mul_nonneg (by positivity) (multiProb_nonneg hp m)
      · rw [if_neg hm]
        refine Finset.sum_eq_zero fun i _ => ?_
        split
        · rename_i hi
          have := sum_sub_single m i hi
          rw [ih, if_neg (by omega), mul_zero]
        · rw [mul_zero]
  intro m
  rw [key]
  by_cases h : ∑ i, m i = n
  · rw [if_pos h, if_pos h]
    unfold multiProb
    rw [h]
    push_cast
    rfl
  · rw [if_neg h, if_neg h]

theorem poisson_apply (r : ℝ≥0) (n : ℕ) : poisson r n = ENNReal.ofReal (Real.exp (-r) * r ^ n / n.factorial) := by
  unfold poisson
  rw [Measure.toPMF_apply, poissonMeasure_singleton]

/-- A Poisson number of draws: the numbers in the classes are independent Poisson numbers. -/
theorem poisson_draws_law (q : PMF ι) (p : ι → ℝ≥0) (hq : ∀ i, q i = ENNReal.ofReal (p i)) (r : ℝ≥0) :
    IsIndependentPoisson (fun i => r * p i) ((poisson r).bind fun n => draws q n) := by
  have hsum : ∑ i, p i = 1 := by
    have h := q.tsum_coe
    rw [tsum_fintype, Finset.sum_congr rfl fun i _ => (hq i).trans (ENNReal.ofReal_coe_nnreal)] at h
    exact_mod_cast h
  unfold IsIndependentPoisson
  refine Measure.ext_of_singleton fun m => ?_
  rw [PMF.toMeasure_apply_singleton _ _ (measurableSet_singleton _), Measure.pi_singleton]
  simp only [poissonMeasure_singleton]
  rw [PMF.bind_apply, tsum_eq_single (∑ i, m i)]
  · rw [draws_law q (fun i => p i) (fun i => (p i).2) hq _ m, if_pos rfl, poisson_apply, ← ENNReal.ofReal_mul (by positivity),
      ← ENNReal.ofReal_prod_of_nonneg (fun i _ => by positivity)]
    congr 1
    rw [Finset.prod_div_distrib, Finset.prod_mul_distrib, ← Real.exp_sum]
    have hexp : ∑ i, -((r * p i : ℝ≥0) : ℝ) = -r := by
      have : ((∑ i, p i : ℝ≥0) : ℝ) = 1 := by rw [hsum]; rfl
      push_cast at this ⊢
      rw [Finset.sum_neg_distrib, ← Finset.mul_sum, this, mul_one]
    have hpow : ∏ i, ((r * p i : ℝ≥0) : ℝ) ^ m i = (r : ℝ) ^ (∑ i, m i) * ∏ i, (p i : ℝ) ^ m i := by
      push_cast
      rw [Finset.prod_congr rfl fun i _ => mul_pow (r : ℝ) (p i : ℝ) (m i), Finset.prod_mul_distrib, Finset.prod_pow_eq_pow_sum]
    rw [hexp, hpow]
    have h1 : ((∑ i, m i).factorial : ℝ) ≠ 0 := by positivity
    have h2 : (∏ i, ((m i).factorial : ℝ)) ≠ 0 := (Finset.prod_pos fun i _ => by positivity).ne'
    push_cast
    field_simp
  · intro n hn
    rw [draws_law q (fun i => p i) (fun i => (p i).2) hq n m, if_neg hn.symm, mul_zero]

end Zfit.BinPdf
