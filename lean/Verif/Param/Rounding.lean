import Mathlib.Algebra.Order.Field.Rat
import Mathlib.Algebra.Order.Round
import Mathlib.Data.Int.Log
import Mathlib.Tactic.Linarith
import Mathlib.Tactic.Ring
import Mathlib.Tactic.FieldSimp
import Mathlib.Tactic.Positivity
import Mathlib.Tactic.NormNum
import Mathlib.Tactic.Push
import Mathlib.Algebra.Order.Ring.Abs
import Mathlib.Tactic.Choose
import Mathlib.Data.Rat.Floor
import Mathlib.Algebra.Order.Field.Power
import Mathlib.Tactic.NormNum.Pow

/-!
# Rounding to the nearest number with `p` bits

The exponent is not bounded: overflow and denormal numbers are not modelled.
-/

namespace Zfit.ParF

/-- Numbers with `p` bits. -/
def Rep (p : ℕ) (q : ℚ) : Prop := ∃ m e : ℤ, |m| < 2 ^ p ∧ q = m * 2 ^ e

/-- Rounding to the nearest number; ties in any way. -/
structure Rounding (p : ℕ) (rnd : ℚ → ℚ) : Prop where
  rep : ∀ x, Rep p (rnd x)
  near : ∀ x r, Rep p r → |rnd x - x| ≤ |r - x|

variable {p : ℕ} {rnd : ℚ → ℚ}

theorem Rep.neg {q : ℚ} (h : Rep p q) : Rep p (-q) := by
  obtain ⟨m, e, hm, rfl⟩ := h
  exact ⟨-m, e, by simpa using hm, by push_cast; ring⟩

theorem rep_zero : Rep p 0 := ⟨0, 0, by simp, by simp⟩

theorem Rounding.fix (h : Rounding p rnd) {x : ℚ} (hx : Rep p x) : rnd x = x := by
  have := h.near x x hx
  rw [sub_self, abs_zero, abs_nonpos_iff] at this
  linarith

theorem Rounding.mono (h : Rounding p rnd) : Monotone rnd := by
  intro x y hxy
  by_contra hc
  push Not at hc
  rcases hxy.lt_or_eq with hlt | rfl
  · have h1 := h.near x (rnd y) (h.rep y)
    have h2 := h.near y (rnd x) (h.rep x)
    have e1 : (rnd x - x) ^ 2 ≤ (rnd y - x) ^ 2 := sq_le_sq.2 h1
    have e2 : (rnd y - y) ^ 2 ≤ (rnd x - y) ^ 2 := sq_le_sq.2 h2
    nlinarith
  · exact lt_irrefl _ hc

/-- A number with `p` bits whose absolute value is at least `2 ^ (p + k)` is a multiple of `2 ^ (k + 1)`. -/
theorem Rep.multiple {q : ℚ} (h : Rep p q) {k : ℤ} (hq : (2 : ℚ) ^ ((p : ℤ) + k) ≤ |q|) : ∃ n : ℤ, q = n * 2 ^ (k + 1) := by
  obtain ⟨m, e, hm, rfl⟩ := h
  have he : k < e := by
    by_contra hc
    push Not at hc
    have h1 : |(m : ℚ)| < 2 ^ p := by exact_mod_cast hm
    have h2 : (2 : ℚ) ^ e ≤ 2 ^ k := zpow_le_zpow_right₀ (by norm_num) hc
    have h3 : (0 : ℚ) < 2 ^ e := by positivity
    rw [abs_mul, abs_of_pos h3, zpow_add₀ (by norm_num), zpow_natCast] at hq
    have h4 : |(m : ℚ)| * 2 ^ e < 2 ^ p * 2 ^ e := mul_lt_mul_of_pos_right h1 h3
    have h5 : (2 : ℚ) ^ p * 2 ^ e ≤ 2 ^ p * 2 ^ k := mul_le_mul_of_nonneg_left h2 (by positivity)
    linarith
  obtain ⟨j, hj⟩ := Int.eq_ofNat_of_zero_le (a := e - (k + 1)) (by omega)
  refine ⟨m * 2 ^ j, ?_⟩
  have : e = j + (k + 1) := by omega
  rw [this, zpow_add₀ (by norm_num), zpow_natCast]
  push_cast
  ring

/-- Sterbenz: the difference of numbers that differ at most by a factor of two is exact. -/
theorem sterbenz {a b : ℚ} (ha : Rep p a) (hb : Rep p b) (h1 : |b - a| ≤ |a|) (h2 : |b - a| ≤ |b|) : Rep p (b - a) := by
  obtain ⟨m, e, hm, rfl⟩ := ha
  obtain ⟨m', e', hm', rfl⟩ := hb
  have key : ∀ (m e m' e' : ℤ), |m| < 2 ^ p → e ≤ e' → |(m' : ℚ) * 2 ^ e' - m * 2 ^ e| ≤ |(m : ℚ) * 2 ^ e| →
      Rep p ((m' : ℚ) * 2 ^ e' - m * 2 ^ e) := by
    intro m e m' e' hm he h
    obtain ⟨j, hj⟩ := Int.eq_ofNat_of_zero_le (a := e' - e) (by omega)
    have hz : (m' : ℚ) * 2 ^ e' - m * 2 ^ e = ((m' * 2 ^ j - m : ℤ) : ℚ) * 2 ^ e := by
      rw [show e' = j + e by omega, zpow_add₀ (by norm_num), zpow_natCast]
      push_cast
      ring
    refine ⟨m' * 2 ^ j - m, e, ?_, hz⟩
    rw [hz, abs_mul, abs_mul] at h
    have hpos : (0 : ℚ) < |(2 : ℚ) ^ e| := by positivity
    have := le_of_mul_le_mul_right h hpos
    have : |m' * 2 ^ j - m| ≤ |m| := by exact_mod_cast this
    omega
  rcases le_total e e' with he | he
  · exact key m e m' e' hm he h1
  · have := (key m' e' m e hm' he (by rw [abs_sub_comm]; exact h2)).neg
    rwa [neg_sub] at this

/-- Every number has a nearest one, at a distance of at most a fraction `2 ^ -p` of it. -/
theorem exists_nearest (hp : 1 ≤ p) (x : ℚ) : ∃ y, Rep p y ∧ (∀ r, Rep p r → |y - x| ≤ |r - x|) ∧ |y - x| * 2 ^ p ≤ |x| := by
  rcases eq_or_ne x 0 with rfl | hx
  · exact ⟨0, rep_zero, fun r _ => by simp, by simp⟩
  have hax : 0 < |x| := abs_pos.2 hx
  set k : ℤ := Int.log 2 |x| - p with hk
  have lo : (2 : ℚ) ^ ((p : ℤ) + k) ≤ |x| := by
    have := Int.zpow_log_le_self (b := 2) (by norm_num) hax
    rw [show (p : ℤ) + k = Int.log 2 |x| by omega]
    exact_mod_cast this
  have hi : |x| < (2 : ℚ) ^ ((p : ℤ) + k + 1) := by
    have := Int.lt_zpow_succ_log_self (b := 2) (by norm_num) |x|
    rw [show (p : ℤ) + k + 1 = Int.log 2 |x| + 1 by omega]
    exact_mod_cast this
  have hu : (0 : ℚ) < 2 ^ (k + 1) := by positivity
  have hpu : (2 : ℚ) ^ ((p : ℤ) + k + 1) = 2 ^ p * 2 ^ (k + 1) := by
    rw [add_assoc, zpow_add₀ (by norm_num), zpow_natCast]
  have hlu : (2 : ℚ) ^ ((p : ℤ) + k) = ((2 ^ (p - 1) : ℕ) : ℚ) * 2 ^ (k + 1) := by
    rw [show (p : ℤ) + k = ((p - 1 : ℕ) : ℤ) + (k + 1) by omega, zpow_add₀ (by norm_num), zpow_natCast]
    push_cast
    rfl
  -- the nearest multiple
  have best : ∀ n : ℤ, |(round (x / 2 ^ (k + 1)) : ℚ) * 2 ^ (k + 1) - x| ≤ |(n : ℚ) * 2 ^ (k + 1) - x| := by
    intro n
    have h := round_le (x / 2 ^ (k + 1)) n
    have hd : ∀ z : ℚ, |z * 2 ^ (k + 1) - x| = |x / 2 ^ (k + 1) - z| * 2 ^ (k + 1) := by
      intro z
      rw [← abs_of_pos hu, ← abs_mul, abs_of_pos hu, abs_sub_comm]
      congr 1
      field_simp
    rw [hd, hd]
    exact mul_le_mul_of_nonneg_right h hu.le
  refine ⟨(round (x / 2 ^ (k + 1)) : ℚ) * 2 ^ (k + 1), ?_, ?_, ?_⟩
  · have hle : |round (x / 2 ^ (k + 1))| ≤ 2 ^ p := by
      have h1 : |x / 2 ^ (k + 1)| < 2 ^ p := by
        rw [abs_div, abs_of_pos hu, div_lt_iff₀ hu, ← hpu]
        exact hi
      have h2 := abs_sub_round (x / 2 ^ (k + 1))
      have h3 : |(round (x / 2 ^ (k + 1)) : ℚ)| < 2 ^ p + 1 := by
        have := abs_sub_abs_le_abs_sub (round (x / 2 ^ (k + 1)) : ℚ) (x / 2 ^ (k + 1))
        rw [abs_sub_comm] at this
        linarith
      have h4 : |round (x / 2 ^ (k + 1))| < 2 ^ p + 1 := by exact_mod_cast h3
      omega
    rcases hle.lt_or_eq with hlt | heq
    · exact ⟨_, k + 1, hlt, rfl⟩
    · have hone : (1 : ℤ) < 2 ^ p := by
        calc (1 : ℤ) < 2 ^ 1 := by norm_num
          _ ≤ 2 ^ p := pow_le_pow_right₀ (by norm_num) hp
      rcases abs_cases (round (x / 2 ^ (k + 1))) with ⟨h, -⟩ | ⟨h, -⟩
      · refine ⟨1, (p : ℤ) + k + 1, by simpa using hone, ?_⟩
        rw [← h, heq, hpu]
        push_cast
        ring
      · refine ⟨-1, (p : ℤ) + k + 1, by simpa using hone, ?_⟩
        rw [show round (x / 2 ^ (k + 1)) = -2 ^ p by omega, hpu]
        push_cast
        ring
  · intro r hr
    rcases le_or_gt ((2 : ℚ) ^ ((p : ℤ) + k)) |r| with h | h
    · obtain ⟨n, rfl⟩ := hr.multiple h
      exact best n
    · rcases le_or_gt 0 x with h0 | h0
      · rw [abs_of_nonneg h0] at lo
        refine le_trans (best (2 ^ (p - 1) : ℕ)) ?_
        rw [Int.cast_natCast, ← hlu, abs_of_nonpos (by linarith), abs_of_nonpos (by linarith [abs_lt.1 h])]
        linarith [abs_lt.1 h]
      · rw [abs_of_neg h0] at lo
        refine le_trans (best (-(2 ^ (p - 1) : ℕ))) ?_
        rw [Int.cast_neg, Int.cast_natCast, neg_mul, ← hlu, abs_of_nonneg (by linarith), abs_of_nonneg (by linarith [abs_lt.1 h])]
        linarith [abs_lt.1 h]
  · have h := abs_sub_round (x / 2 ^ (k + 1))
    have hd : |(round (x / 2 ^ (k + 1)) : ℚ) * 2 ^ (k + 1) - x| = |x / 2 ^ (k + 1) - round (x / 2 ^ (k + 1))| * 2 ^ (k + 1) := by
      rw [← abs_of_pos hu, ← abs_mul, abs_of_pos hu, abs_sub_comm]
      congr 1
      field_simp
    have h2 : |x / 2 ^ (k + 1) - round (x / 2 ^ (k + 1))| * 2 ^ (k + 1) ≤ 1 / 2 * 2 ^ (k + 1) := mul_le_mul_of_nonneg_right h hu.le
    have h3 : (2 : ℚ) ^ ((p : ℤ) + k) = 1 / 2 * 2 ^ (k + 1) * 2 ^ p := by
      rw [zpow_add₀ (by norm_num), zpow_add₀ (by norm_num), zpow_natCast]
      ring
    calc _ = |x / 2 ^ (k + 1) - round (x / 2 ^ (k + 1))| * 2 ^ (k + 1) * 2 ^ p := by rw [hd]
      _ ≤ 1 / 2 * 2 ^ (k + 1) * 2 ^ p := mul_le_mul_of_nonneg_right h2 (by positivity)
      _ = (2 : ℚ) ^ ((p : ℤ) + k) := h3.symm
      _ ≤ |x| := lo

/-- There is such a rounding. -/
theorem exists_rounding (hp : 1 ≤ p) : ∃ rnd : ℚ → ℚ, Rounding p rnd := by
  choose f h1 h2 _ using exists_nearest (p := p) hp
  exact ⟨f, h1, h2⟩

/-- The error of a rounding. -/
theorem Rounding.err (h : Rounding p rnd) (hp : 1 ≤ p) (x : ℚ) : |rnd x - x| * 2 ^ p ≤ |x| := by
  obtain ⟨y, hy, -, hb⟩ := exists_nearest hp x
  exact le_trans (mul_le_mul_of_nonneg_right (h.near x y hy) (by positivity)) hb

end Zfit.ParF
