import Mathlib.LinearAlgebra.Matrix.PosDef
import Mathlib.Analysis.SpecialFunctions.Pow.Real
import Mathlib.Analysis.SpecialFunctions.Sqrt

/-!
# Correlation matrices (C57)

Model of `covariance_to_correlation` (/repo/zfit/minimizers/fitresult.py:1599-1601), over the reals.
-/

namespace Zfit.Res

open Matrix

variable {n : Type} [Fintype n] [DecidableEq n]

/-- `np.diag(1 / np.diag(covariance) ** 0.5)` (fitresult.py:1600). -/
noncomputable def scale (c : Matrix n n ℝ) : Matrix n n ℝ := Matrix.diagonal fun i => 1 / c i i ^ (0.5 : ℝ)

/-- `covariance_to_correlation` (fitresult.py:1599-1601). -/
noncomputable def correlation (c : Matrix n n ℝ) : Matrix n n ℝ := scale c * (c * scale c)

theorem correlation_apply (c : Matrix n n ℝ) (i j : n) : correlation c i j = c i j / (√(c i i) * √(c j j)) := by
  unfold correlation scale
  rw [Matrix.diagonal_mul, Matrix.mul_diagonal]
  have h : ∀ x : ℝ, x ^ (0.5 : ℝ) = √x := by
    intro x
    rw [Real.sqrt_eq_rpow]
    norm_num
  rw [h, h, one_div, one_div, div_eq_mul_inv, mul_inv]
  ring

/-- A symmetric matrix whose quadratic form is positive away from zero (no reference to Mathlib's classes). -/
def PositiveDefinite (c : Matrix n n ℝ) : Prop :=
  (∀ i j, c i j = c j i) ∧ ∀ x : n → ℝ, x ≠ 0 → 0 < ∑ i, ∑ j, x i * c i j * x j

theorem form_pair (c : Matrix n n ℝ) (i j : n) (hij : i ≠ j) (a b : ℝ) :
    ∑ k, ∑ l, (Pi.single i a + Pi.single j b : n → ℝ) k * c k l * (Pi.single i a + Pi.single j b : n → ℝ) l =
      a * c i i * a + a * c i j * b + b * c j i * a + b * c j j * b := by
  have inner : ∀ k, ∑ l, (Pi.single i a + Pi.single j b : n → ℝ) k * c k l * (Pi.single i a + Pi.single j b : n → ℝ) l =
      (Pi.single i a + Pi.single j b : n → ℝ) k * (c k i * a + c k j * b) := by
    intro k
    have : ∀ l, (Pi.single i a + Pi.single j b : n → ℝ) k * c k l * (Pi.single i a + Pi.single j b : n → ℝ) l =
        (Pi.single i a + Pi.single j b : n → ℝ) k * (c k l * (if l = i then a else 0)) +
        (Pi.single i a + Pi.single j b : n → ℝ) k * (c k l * (if l = j then b else 0)) := by
      intro l
      simp only [Pi.add_apply, Pi.single_apply]
      ring
    simp_rw [this]
    rw [Finset.sum_add_distrib, ← Finset.mul_sum, ← Finset.mul_sum]
    simp [mul_add]
  simp_rw [inner]
  have : ∀ k, (Pi.single i a + Pi.single j b : n → ℝ) k * (c k i * a + c k j * b) =
      (if k = i then a else 0) * (c k i * a + c k j * b) + (if k = j then b else 0) * (c k i * a + c k j * b) := by
    intro k
    simp only [Pi.add_apply, Pi.single_apply]
    ring
  simp_rw [this]
  rw [Finset.sum_add_distrib]
  simp
  ring

theorem diagonal_pos {c : Matrix n n ℝ} (h : PositiveDefinite c) (i : n) : 0 < c i i := by
  have h1 := h.2 (Pi.single i 1) (by
    intro h0
    have := congrFun h0 i
    simp at this)
  simpa [Pi.single_apply] using h1

theorem off_diagonal {c : Matrix n n ℝ} (h : PositiveDefinite c) (i j : n) (hij : i ≠ j) : c i j ^ 2 < c i i * c j j := by
  have hj := diagonal_pos h j
  have h1 := h.2 (Pi.single i (c j j) + Pi.single j (-c i j)) (by
    intro h0
    have := congrFun h0 i
    simp [Pi.single_apply, hij, hj.ne'] at this)
  rw [form_pair c i j hij, h.1 j i] at h1
  have h2 : 0 < c j j * (c i i * c j j - c i j ^ 2) := by
    calc 0 < _ := h1
      _ = _ := by ring
  have := (mul_pos_iff_of_pos_left hj).1 h2
  linarith

/-- C57: the correlation matrix of a positive definite covariance matrix of any size has ones on the diagonal, is
symmetric, and its other entries are strictly between -1 and 1. -/
theorem correlation_bounded (c : Matrix n n ℝ) (h : PositiveDefinite c) :
    (∀ i, correlation c i i = 1) ∧ (∀ i j, correlation c i j = correlation c j i) ∧
    (∀ i j, i ≠ j → -1 < correlation c i j ∧ correlation c i j < 1) := by
  refine ⟨?_, ?_, ?_⟩
  · intro i
    rw [correlation_apply, Real.mul_self_sqrt (diagonal_pos h i).le, div_self (diagonal_pos h i).ne']
  · intro i j
    rw [correlation_apply, correlation_apply, h.1 i j, mul_comm (√(c i i))]
  · intro i j hij
    rw [correlation_apply, ← abs_lt, abs_div]
    have hs : 0 < √(c i i) * √(c j j) := mul_pos (Real.sqrt_pos.2 (diagonal_pos h i)) (Real.sqrt_pos.2 (diagonal_pos h j))
    rw [abs_of_pos hs, div_lt_one hs, ← Real.sqrt_mul (diagonal_pos h i).le]
    apply Real.lt_sqrt_of_sq_lt
    rw [sq_abs]
    exact off_diagonal h i j hij

/-- C57: and it says what the covariance says: the covariance is the correlation times the two standard deviations. -/
theorem correlation_recovers (c : Matrix n n ℝ) (h : PositiveDefinite c) (i j : n) :
    c i j = correlation c i j * √(c i i) * √(c j j) := by
  have hi := Real.sqrt_pos.2 (diagonal_pos h i)
  have hj := Real.sqrt_pos.2 (diagonal_pos h j)
  rw [correlation_apply]
  field_simp

/-- A covariance matrix meeting the hypothesis. -/
example : PositiveDefinite !![(4 : ℝ), 1; 1, 9] := by
  constructor
  · intro i j
    fin_cases i <;> fin_cases j <;> rfl
  · intro x hx
    simp only [Fin.sum_univ_two, Matrix.of_apply, Matrix.cons_val', Matrix.cons_val_zero, Matrix.cons_val_one,
      Matrix.cons_val_fin_one]
    have h0 : x 0 ≠ 0 ∨ x 1 ≠ 0 := by
      by_contra hc
      push Not at hc
      apply hx
      funext i
      fin_cases i
      · exact hc.1
      · exact hc.2
    have key : x 0 * 4 * x 0 + x 0 * 1 * x 1 + (x 1 * 1 * x 0 + x 1 * 9 * x 1) =
        3 * x 0 ^ 2 + 8 * x 1 ^ 2 + (x 0 + x 1) ^ 2 := by ring
    rw [key]
    rcases h0 with h | h
    · have := pow_pos (abs_pos.2 h) 2
      rw [sq_abs] at this
      positivity
    · have := pow_pos (abs_pos.2 h) 2
      rw [sq_abs] at this
      positivity

end Zfit.Res
