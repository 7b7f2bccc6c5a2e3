import Verif.Num.SimpsonModel
import Verif.Common.Except
import Mathlib.Analysis.SpecialFunctions.Integrals.Basic
import Mathlib.Tactic.LinearCombination
import Mathlib.Tactic.FieldSimp

/-! Properties of Simpson integration (C58). -/

namespace Zfit.Num

open Zfit intervalIntegral

/-- The sum over panels of two steps: `f(2j) + 4 f(2j+1) + f(2j+2)`. -/
def panels (g : ℕ → ℝ) (k : ℕ) : ℝ := ∑ j ∈ Finset.range k, (g (2 * j) + 4 * g (2 * j + 1) + g (2 * j + 2))

/-- The tail of the weighted sum, from an inner point of a panel on. -/
theorem tail_sum (g : ℕ → ℝ) (k : ℕ) : ∀ s : ℕ,
    (List.zipWith (· * ·) ((List.range (2 * k + 2)).map fun i => g (s + i))
      ((List.replicate k [(4 : ℝ), 2]).flatten ++ [4, 1])).sum + g (s - 1) =
    ∑ j ∈ Finset.range (k + 1), ((if j = 0 then g (s - 1) else g (s + 2 * j - 1)) + 4 * g (s + 2 * j) + g (s + 2 * j + 1)) := by
  induction k with
  | zero =>
    intro s
    simp [List.range_succ]
    ring
  | succ k ih =>
    intro s
    rw [Finset.sum_range_succ']
    have hr : (List.range (2 * (k + 1) + 2)).map (fun i => g (s + i)) =
        g s :: g (s + 1) :: (List.range (2 * k + 2)).map fun i => g (s + 2 + i) := by
      rw [show 2 * (k + 1) + 2 = (2 * k + 2) + 1 + 1 by ring, List.range_succ_eq_map, List.range_succ_eq_map]
      simp only [List.map_cons, List.map_map, Nat.add_zero]
      congr 2
      apply List.map_congr_left
      intro i _
      simp only [Function.comp_apply]
      congr 1
      omega
    rw [hr, List.replicate_succ, List.flatten_cons]
    simp only [List.cons_append, List.nil_append, List.zipWith_cons_cons, List.sum_cons]
    have := ih (s + 2)
    rw [show s + 2 - 1 = s + 1 by omega] at this
    have h2 : ∑ j ∈ Finset.range (k + 1), ((if j = 0 then g (s + 1) else g (s + 2 + 2 * j - 1)) + 4 * g (s + 2 + 2 * j) +
        g (s + 2 + 2 * j + 1)) = ∑ j ∈ Finset.range (k + 1), ((if j + 1 = 0 then g (s - 1) else g (s + 2 * (j + 1) - 1)) +
        4 * g (s + 2 * (j + 1)) + g (s + 2 * (j + 1) + 1)) := by
      apply Finset.sum_congr rfl
      intro j _
      rw [show s + 2 + 2 * j = s + 2 * (j + 1) by ring]
      rcases j with _ | j
      · simp only [if_true, Nat.zero_add, Nat.one_ne_zero, if_false]
        rw [show s + 2 * 1 - 1 = s + 1 by omega]
      · simp
    rw [← h2, ← this]
    simp
    ring

/-- The weighted sum is the sum over the panels. -/
theorem weighted_sum (g : ℕ → ℝ) (k : ℕ) (hk : 0 < k) :
    (List.zipWith (· * ·) ((List.range (2 * k + 1)).map g) (weights (2 * k + 1))).sum = panels g k := by
  obtain ⟨k, rfl⟩ := Nat.exists_eq_add_of_lt hk
  rw [Nat.zero_add]
  unfold weights
  rw [show (2 * (k + 1) + 1 - 3) / 2 = k by omega, show 2 * (k + 1) + 1 = (2 * k + 2) + 1 by ring, List.range_succ_eq_map]
  simp only [List.map_cons, List.cons_append, List.nil_append, List.zipWith_cons_cons, List.sum_cons, List.map_map]
  have h := tail_sum g k 1
  have e : (List.range (2 * k + 2)).map (fun i => g (1 + i)) = (List.range (2 * k + 2)).map (g ∘ Nat.succ) := by
    apply List.map_congr_left
    intro i _
    simp only [Function.comp_apply]
    congr 1
    omega
  rw [e] at h
  unfold panels
  rw [show g 0 * 1 = g (1 - 1) by simp, add_comm, h]
  apply Finset.sum_congr rfl
  intro j _
  rcases j with _ | j
  · simp
  · simp only [Nat.add_eq_zero_iff, Nat.one_ne_zero, and_false, if_false]
    rw [show 1 + 2 * (j + 1) - 1 = 2 * (j + 1) by omega, show 1 + 2 * (j + 1) = 2 * (j + 1) + 1 by ring]

/-- The value of `simpson` for `2k + 1` points. -/
theorem simpson_value (f : ℝ → ℝ) (lower upper : ℝ) (k : ℕ) (hk : 0 < k) :
    simpson f lower upper (2 * k + 1) =
      .ok (panels (fun i => f (lower + (upper - lower) / (2 * k) * i)) k * ((upper - lower) / (2 * k)) / 3) := by
  unfold simpson
  rw [if_neg (by omega), if_neg (by omega)]
  simp only
  have hc : ((2 * k + 1 : ℕ) : ℝ) - 1 = 2 * k := by push_cast; ring
  rw [hc]
  unfold grid
  rw [List.map_map]
  have := weighted_sum (fun i => f (lower + (upper - lower) / (2 * k) * i)) k hk
  rw [← this]
  rfl

theorem sanitize_odd (n : ℕ) (hn : 1 ≤ n) : ∃ k, 0 < k ∧ sanitize n = 2 * k + 1 := by
  unfold sanitize
  rcases Nat.even_or_odd' n with ⟨m, rfl | rfl⟩
  · exact ⟨m, by omega, by omega⟩
  · exact ⟨m + 1, by omega, by omega⟩

/-- C58: for every requested number of points from one on, an odd number of at least three points is used, at least as many
as requested and at most two more; none at all are refused. -/
theorem points_sanitized (n : ℕ) :
    (1 ≤ n → 3 ≤ sanitize n ∧ sanitize n % 2 = 1 ∧ n ≤ sanitize n ∧ sanitize n ≤ n + 2) ∧
    (∀ f pieces, 1 ≤ n → ∃ v, simpsonIntegrate f pieces n = .ok v) ∧
    (∀ f p pieces, simpsonIntegrate f (p :: pieces) 0 = .error .invalidArgument) := by
  refine ⟨?_, ?_, ?_⟩
  · intro hn
    unfold sanitize
    omega
  · intro f pieces hn
    obtain ⟨k, hk, hs⟩ := sanitize_odd n hn
    unfold simpsonIntegrate
    have : ∃ l, pieces.mapM (fun p => simpson f p.1 p.2 (sanitize n)) = .ok l := by
      rw [hs]
      induction pieces with
      | nil => exact ⟨[], rfl⟩
      | cons p pieces ih =>
        obtain ⟨l, hl⟩ := ih
        obtain ⟨v, hv⟩ : ∃ v, simpson f p.1 p.2 (2 * k + 1) = .ok v := ⟨_, simpson_value f p.1 p.2 k hk⟩
        refine ⟨v :: l, ?_⟩
        rw [List.mapM_cons, hv, hl]
        rfl
    obtain ⟨l, hl⟩ := this
    exact ⟨l.sum, by rw [hl]; rfl⟩
  · intro f p pieces
    rfl

/-- A cubic polynomial. -/
def cubic (c0 c1 c2 c3 x : ℝ) : ℝ := c0 + c1 * x + c2 * x ^ 2 + c3 * x ^ 3

theorem integral_cubic (c0 c1 c2 c3 a b : ℝ) :
    ∫ x in a..b, cubic c0 c1 c2 c3 x =
      (c0 * b + c1 * b ^ 2 / 2 + c2 * b ^ 3 / 3 + c3 * b ^ 4 / 4) - (c0 * a + c1 * a ^ 2 / 2 + c2 * a ^ 3 / 3 + c3 * a ^ 4 / 4) := by
  apply integral_eq_sub_of_hasDerivAt (f := fun x => c0 * x + c1 * x ^ 2 / 2 + c2 * x ^ 3 / 3 + c3 * x ^ 4 / 4)
  · intro x _
    have h1 : HasDerivAt (fun x : ℝ => x) 1 x := hasDerivAt_id x
    have h := (((h1.const_mul c0).add (((h1.pow 2).const_mul c1).div_const 2)).add
      (((h1.pow 3).const_mul c2).div_const 3)).add (((h1.pow 4).const_mul c3).div_const 4)
    refine h.congr_deriv ?_
    unfold cubic
    push_cast
    ring
  · apply Continuous.intervalIntegrable
    unfold cubic
    fun_prop

/-- C58: Simpson integration with any number of points from one on gives exactly the integral of a cubic polynomial over
any interval. -/
theorem simpson_cubic_exact (c0 c1 c2 c3 lower upper : ℝ) (n : ℕ) (hn : 1 ≤ n) :
    simpson (cubic c0 c1 c2 c3) lower upper (sanitize n) = .ok (∫ x in lower..upper, cubic c0 c1 c2 c3 x) := by
  obtain ⟨k, hk, hs⟩ := sanitize_odd n hn
  rw [hs, simpson_value _ _ _ k hk, integral_cubic]
  congr 1
  have hk' : (k : ℝ) ≠ 0 := by positivity
  obtain ⟨h, hh⟩ : ∃ h, h = (upper - lower) / (2 * k) := ⟨_, rfl⟩
  have hu : upper = lower + h * (2 * k) := by rw [hh]; field_simp; ring
  rw [← hh, hu]
  unfold panels
  rw [Finset.sum_mul, Finset.sum_div]
  clear hs hh hu hk hk' hn n
  induction k with
  | zero => simp
  | succ k ih =>
    rw [Finset.sum_range_succ, ih]
    unfold cubic
    push_cast
    ring

theorem mapM_ok_map {α β : Type} (f : α → Except Err β) (g : α → β) (l : List α) (h : ∀ a ∈ l, f a = .ok (g a)) :
    l.mapM f = .ok (l.map g) := by
  induction l with
  | nil => rfl
  | cons a l ih =>
    rw [List.mapM_cons, h a List.mem_cons_self, ih (fun b hb => h b (List.mem_cons_of_mem _ hb))]
    rfl

/-- C58: and over limits of several pieces the sum of the integrals over the pieces. -/
theorem simpson_cubic_exact_pieces (c0 c1 c2 c3 : ℝ) (pieces : List (ℝ × ℝ)) (n : ℕ) (hn : 1 ≤ n) :
    simpsonIntegrate (cubic c0 c1 c2 c3) pieces n =
      .ok (pieces.map fun p => ∫ x in p.1..p.2, cubic c0 c1 c2 c3 x).sum := by
  unfold simpsonIntegrate
  rw [mapM_ok_map _ (fun p => ∫ x in p.1..p.2, cubic c0 c1 c2 c3 x) _ (fun p _ => simpson_cubic_exact c0 c1 c2 c3 p.1 p.2 n hn)]
  rfl

/-- C58: for any function the result is linear in the function, and not negative if the function is not negative. -/
theorem simpson_linear_nonneg (f g : ℝ → ℝ) (a b lower upper : ℝ) (n : ℕ) (hn : 1 ≤ n) :
    (∀ u v, simpson f lower upper (sanitize n) = .ok u → simpson g lower upper (sanitize n) = .ok v →
      simpson (fun x => a * f x + b * g x) lower upper (sanitize n) = .ok (a * u + b * v)) ∧
    (∀ u, lower ≤ upper → (∀ x, lower ≤ x → x ≤ upper → 0 ≤ f x) → simpson f lower upper (sanitize n) = .ok u → 0 ≤ u) := by
  obtain ⟨k, hk, hs⟩ := sanitize_odd n hn
  rw [hs]
  constructor
  · intro u v hu hv
    rw [simpson_value _ _ _ k hk] at hu hv ⊢
    cases hu
    cases hv
    congr 1
    unfold panels
    simp only [Finset.sum_mul, Finset.mul_sum, Finset.sum_div, mul_div_assoc]
    rw [← Finset.sum_add_distrib]
    apply Finset.sum_congr rfl
    intro j _
    ring
  · intro u hlu hf hu
    rw [simpson_value _ _ _ k hk] at hu
    cases hu
    have hk' : (0 : ℝ) < k := by exact_mod_cast hk
    have hd : 0 ≤ (upper - lower) / (2 * k) := div_nonneg (by linarith) (by positivity)
    have hg : ∀ i : ℕ, i ≤ 2 * k → 0 ≤ f (lower + (upper - lower) / (2 * k) * i) := by
      intro i hi
      apply hf
      · have := mul_nonneg hd (Nat.cast_nonneg i)
        linarith
      · have hi' : (i : ℝ) ≤ 2 * k := by exact_mod_cast hi
        have := mul_le_mul_of_nonneg_left hi' hd
        have h2 : (upper - lower) / (2 * k) * (2 * k) = upper - lower := by field_simp
        linarith
    apply div_nonneg _ (by norm_num)
    apply mul_nonneg _ hd
    unfold panels
    apply Finset.sum_nonneg
    intro j hj
    rw [Finset.mem_range] at hj
    have a1 := hg (2 * j) (by omega)
    have a2 := hg (2 * j + 1) (by omega)
    have a3 := hg (2 * j + 2) (by omega)
    linarith

/-- Four requested points: five are used; the integral of x³ over [0, 2] is 4. -/
example : sanitize 4 = 5 ∧ simpson (cubic 0 0 0 1) 0 2 (sanitize 4) = .ok 4 := by
  refine ⟨rfl, ?_⟩
  rw [simpson_cubic_exact _ _ _ _ _ _ _ (by norm_num), integral_cubic]
  norm_num

/-- Not more than cubic: x⁴ over [0, 2] with three points gives 20/3 instead of 32/5. -/
example : simpson (fun x => x ^ 4) 0 2 3 = .ok (20 / 3) := by
  rw [show (3 : ℕ) = 2 * 1 + 1 from rfl, simpson_value _ _ _ 1 (by norm_num)]
  unfold panels
  norm_num

end Zfit.Num
