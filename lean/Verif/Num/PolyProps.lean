import Verif.Num.PolyLemmas
import Mathlib.Analysis.SpecialFunctions.Trigonometric.Chebyshev.Basic
import Mathlib.Tactic.NormNum
import Mathlib.Analysis.Calculus.Deriv.Pow

/-! Properties of the polynomial pdfs (C61). -/

namespace Zfit.Num

/-- The polynomials of each family. -/
noncomputable def Family.basis (f : Family) (k : ℕ) (x : ℝ) : ℝ :=
  match f with
  | .legendre => legendre3.val x k
  | .chebyshev => cheb3.val x k
  | .chebyshev2 => cheb23.val x k
  | .laguerre => (laguerre3 0).val x k
  | .hermite => hermite3.val x k

/-- Antiderivatives of the polynomials, as the code uses them. -/
noncomputable def Family.anti (f : Family) (k : ℕ) (x : ℝ) : ℝ :=
  match f with
  | .legendre => if k = 0 then x else (legendre3.val x (k + 1) - legendre3.val x (k - 1)) / (2 * k + 1)
  | .chebyshev =>
    if k = 0 then x else if k = 1 then 1 / 2 * x ^ 2
    else k * cheb3.val x (k + 1) / ((k : ℝ) ^ 2 - 1) - x * cheb3.val x k / (k - 1)
  | .chebyshev2 => cheb3.val x (k + 1) / (k + 1)
  | .laguerre => -(laguerre3 (-1)).val x (k + 1)
  | .hermite => hermite3.val x (k + 1) / ((k + 1) * 2)

theorem Linear3.cont (L : Linear3) (k : ℕ) : Continuous fun x => L.val x k :=
  continuous_iff_continuousAt.2 fun x => (L.hasDeriv k x).continuousAt

theorem basis_continuous (f : Family) (k : ℕ) : Continuous (f.basis k) := by
  cases f
  · exact legendre3.cont k
  · exact cheb3.cont k
  · exact cheb23.cont k
  · exact (laguerre3 0).cont k
  · exact hermite3.cont k

theorem anti_hasDeriv (f : Family) (k : ℕ) (x : ℝ) : HasDerivAt (f.anti k) (f.basis k x) x := by
  cases f with
  | legendre =>
    rcases k with _ | k
    · exact hasDerivAt_id x
    · have e : Family.legendre.anti (k + 1) = fun x =>
          (legendre3.val x (k + 2) - legendre3.val x k) / (2 * ((k + 1 : ℕ) : ℝ) + 1) := by
        funext y
        simp [Family.anti]
      rw [e]
      have h := ((legendre3.hasDeriv (k + 2) x).sub (legendre3.hasDeriv k x)).div_const (2 * ((k + 1 : ℕ) : ℝ) + 1)
      rw [legendre_anti] at h
      have hk : (2 * ((k + 1 : ℕ) : ℝ) + 1) ≠ 0 := by positivity
      have : (2 * (k : ℝ) + 3) * legendre3.val x (k + 1) / (2 * ((k + 1 : ℕ) : ℝ) + 1) = Family.legendre.basis (k + 1) x := by
        rw [div_eq_iff hk]
        simp only [Family.basis]
        push_cast
        ring
      rw [this] at h
      exact h
  | chebyshev =>
    rcases k with _ | _ | k
    · exact hasDerivAt_id x
    · have e : Family.chebyshev.anti 1 = fun x => 1 / 2 * x ^ 2 := by
        funext y
        simp [Family.anti]
      have h := ((hasDerivAt_id x).pow 2).const_mul (1 / 2 : ℝ)
      have e' : Family.chebyshev.basis (0 + 1) x = x := by simp [Family.basis, Linear3.val, cheb3]
      rw [e, e']
      refine h.congr_deriv ?_
      simp
    · have e : Family.chebyshev.anti (k + 1 + 1) = fun x =>
          ((k + 2 : ℕ) : ℝ) * cheb3.val x (k + 3) / (((k + 2 : ℕ) : ℝ) ^ 2 - 1) -
            x * cheb3.val x (k + 2) / (((k + 2 : ℕ) : ℝ) - 1) := by
        funext y
        simp only [Family.anti]
        rw [if_neg (by omega), if_neg (by omega)]
      rw [e]
      have h := (((cheb3.hasDeriv (k + 3) x).const_mul ((k + 2 : ℕ) : ℝ)).div_const (((k + 2 : ℕ) : ℝ) ^ 2 - 1)).sub
        (((hasDerivAt_id x).mul (cheb3.hasDeriv (k + 2) x)).div_const (((k + 2 : ℕ) : ℝ) - 1))
      refine h.congr_deriv ?_
      simp only [Family.basis, id_eq]
      rw [cheb_der x (k + 2), cheb_der x (k + 1)]
      have mx := cheb_mix x (k + 1)
      have h1 : (k : ℝ) + 1 ≠ 0 := by positivity
      have h3 : (k : ℝ) + 3 ≠ 0 := by positivity
      have e1 : (((k + 2 : ℕ) : ℝ) ^ 2 - 1) = (k + 1) * (k + 3) := by push_cast; ring
      have e2 : (((k + 2 : ℕ) : ℝ) - 1) = k + 1 := by push_cast; ring
      rw [e1, e2]
      push_cast
      rw [show k + 1 + 1 = k + 2 from rfl] at mx ⊢
      rw [mx]
      field_simp
      ring
  | chebyshev2 =>
    have h := (cheb3.hasDeriv (k + 1) x).div_const ((k : ℝ) + 1)
    rw [cheb_der] at h
    have hk : (k : ℝ) + 1 ≠ 0 := by positivity
    rw [mul_div_cancel_left₀ _ hk] at h
    exact h
  | laguerre =>
    have h := ((laguerre3 (-1)).hasDeriv (k + 1) x).neg
    rw [laguerre_der, neg_neg] at h
    exact h
  | hermite =>
    have h := (hermite3.hasDeriv (k + 1) x).div_const (((k : ℝ) + 1) * 2)
    rw [hermite_der] at h
    have hk : ((k : ℝ) + 1) * 2 ≠ 0 := by positivity
    rw [show 2 * ((k : ℝ) + 1) * hermite3.val x k = (((k : ℝ) + 1) * 2) * hermite3.val x k by ring,
      mul_div_cancel_left₀ _ hk] at h
    exact h

/-- The shape is the sum of the coefficients times the polynomials. -/
theorem shape_eq (f : Family) (x : ℝ) (coeffs : List ℝ) :
    f.shape x coeffs = ∑ k ∈ Finset.range coeffs.length, coeffs.getD k 0 * f.basis k x := by
  cases f
  · simp only [Family.shape, legendreShape, createPoly_eq, legendre_val, Family.basis]
  · simp only [Family.shape, chebyshevShape, createPoly_eq, cheb_val, Family.basis]
  · simp only [Family.shape, chebyshev2Shape, createPoly_eq, cheb2_val, Family.basis]
  · simp only [Family.shape, laguerreShape, createPoly_eq, laguerre_val, Family.basis]
  · simp only [Family.shape, hermiteShape, createPoly_eq, hermite_val, Family.basis]

theorem sum_mapIdx (coeffs : List ℝ) (g : ℕ → ℝ) (f : ℕ → ℝ) :
    ∑ k ∈ Finset.range (0 :: coeffs.mapIdx fun n c => c / g n).length,
        (0 :: coeffs.mapIdx fun n c => c / g n).getD k 0 * f k
      = ∑ k ∈ Finset.range coeffs.length, coeffs.getD k 0 * (f (k + 1) / g k) := by
  rw [List.length_cons, Finset.sum_range_succ', List.length_mapIdx]
  simp only [List.getD_cons_succ, List.getD_cons_zero, zero_mul, add_zero]
  refine Finset.sum_congr rfl fun k hk => ?_
  rw [Finset.mem_range] at hk
  rw [List.getD_eq_getElem _ _ (by simpa using hk), List.getD_eq_getElem _ _ hk, List.getElem_mapIdx]
  ring

theorem range'_sum (s n : ℕ) (f : ℕ → ℝ) : ((List.range' s n).map f).sum = ∑ k ∈ Finset.range n, f (s + k) := by
  induction n with
  | zero => simp
  | succ n ih => rw [List.range'_1_concat, List.map_append, List.sum_append, ih, Finset.sum_range_succ]; simp

/-- The registered integral is the difference of the antiderivatives times half the volume. -/
theorem integral_eq (f : Family) (m : PolyPdf) (coeffs : List ℝ) (hc : coeffs ≠ []) (a b : ℝ) :
    f.integral m coeffs a b
      = (∑ k ∈ Finset.range coeffs.length, coeffs.getD k 0 * f.anti k (m.rescale b)
          - ∑ k ∈ Finset.range coeffs.length, coeffs.getD k 0 * f.anti k (m.rescale a)) * (1 / 2 * (m.hi - m.lo)) := by
  obtain ⟨n, hn⟩ : ∃ n, coeffs.length = n + 1 := ⟨coeffs.length - 1, by have := List.length_pos_iff.2 hc; omega⟩
  cases f with
  | legendre =>
    have ind : ∀ limit : ℝ,
        ((List.range' 1 n).map fun d : ℕ => coeffs.getD d 0 *
          ((doRecurrence limit 1 limit (n + 1) legendreRecurrence).getD (d + 1) 0
            - (doRecurrence limit 1 limit (n + 1) legendreRecurrence).getD (d - 1) 0) / (2 * (d : ℝ) + 1)).sum
        = ∑ k ∈ Finset.range n, coeffs.getD (k + 1) 0 * Family.legendre.anti (k + 1) limit := by
      intro limit
      rw [range'_sum]
      refine Finset.sum_congr rfl fun k hk => ?_
      rw [Finset.mem_range] at hk
      rw [recurrence_get _ _ _ _ _ _ (by omega), recurrence_get _ _ _ _ _ _ (by omega), legendre_val, legendre_val]
      simp only [Family.anti]
      rw [if_neg (by omega), Nat.add_comm 1 k]
      ring
    simp only [Family.integral, legendreIntegral, hn, Nat.add_sub_cancel]
    rw [ind, ind, Finset.sum_range_succ', Finset.sum_range_succ']
    have e : ∀ x, Family.legendre.anti 0 x = x := fun x => rfl
    rw [e, e]
    rcases n with _ | n
    · simp
      left
      ring
    · rw [if_neg (by omega)]
      ring
  | chebyshev =>
    have ind : ∀ limit : ℝ,
        ((List.range' 2 (n - 1)).map fun d : ℕ => coeffs.getD d 0 *
          (d * (doRecurrence limit 1 limit (n + 1) chebyshevRecurrence).getD (d + 1) 0 / ((d : ℝ) ^ 2 - 1)
            - limit * (doRecurrence limit 1 limit (n + 1) chebyshevRecurrence).getD d 0 / ((d : ℝ) - 1))).sum
        = ∑ k ∈ Finset.range (n - 1), coeffs.getD (k + 2) 0 * Family.chebyshev.anti (k + 2) limit := by
      intro limit
      rw [range'_sum]
      refine Finset.sum_congr rfl fun k hk => ?_
      rw [Finset.mem_range] at hk
      rw [recurrence_get _ _ _ _ _ _ (by omega), recurrence_get _ _ _ _ _ _ (by omega), cheb_val, cheb_val]
      simp only [Family.anti]
      rw [if_neg (by omega), if_neg (by omega), Nat.add_comm 2 k]
    simp only [Family.integral, chebyshevIntegral, hn, Nat.add_sub_cancel]
    rw [ind, ind]
    have e0 : ∀ x, Family.chebyshev.anti 0 x = x := fun x => rfl
    have e1 : ∀ x, Family.chebyshev.anti 1 x = 1 / 2 * x ^ 2 := fun x => rfl
    rcases n with _ | _ | n
    · simp [e0]
      left
      ring
    · simp [Finset.sum_range_succ, e0, e1]
      left
      ring
    · rw [if_pos (by omega), if_pos (by omega), show n + 1 + 1 - 1 = n + 1 from rfl]
      have two : ∀ g : ℕ → ℝ, ∑ k ∈ Finset.range (n + 1 + 1 + 1), g k = ∑ k ∈ Finset.range (n + 1), g (k + 2) + g 1 + g 0 := by
        intro g
        rw [Finset.sum_range_succ', Finset.sum_range_succ']
      rw [two, two]
      simp only [e0, e1]
      ring
  | chebyshev2 =>
    simp only [Family.integral, chebyshev2Integral, chebyshevShape, createPoly_eq, cheb_val]
    rw [sum_mapIdx, sum_mapIdx]
    rfl
  | laguerre =>
    simp only [Family.integral, laguerreIntegral, laguerreShape, createPoly_eq, laguerre_val]
    rw [List.length_cons, Finset.sum_range_succ', Finset.sum_range_succ']
    simp only [List.getD_cons_succ, List.getD_cons_zero, zero_mul, add_zero, Family.anti, mul_neg, Finset.sum_neg_distrib]
    ring
  | hermite =>
    simp only [Family.integral, hermiteIntegral, hermiteShape, createPoly_eq, hermite_val]
    rw [sum_mapIdx, sum_mapIdx]
    rfl

/-- C61: with scaling (the default), for every family, degree, coefficients and limits, the analytic integral is the integral
of the unnormalised density. -/
theorem polynomial_integral (f : Family) (m : PolyPdf) (hm : m.lo < m.hi) (hs : m.scale = true) (coeffs : List ℝ)
    (hc : coeffs ≠ []) (a b : ℝ) : f.integral m coeffs a b = ∫ x in a..b, f.unnormalized m coeffs x := by
  simp only [Family.unnormalized, shape_eq]
  rw [integral_of_anti m hm hs _ _ _ f.anti (anti_hasDeriv f) (basis_continuous f), integral_eq f m coeffs hc]

/-- C61: without scaling the analytic integral is off by the factor half the width of the space. -/
theorem polynomial_integral_unscaled (f : Family) (m : PolyPdf) (hs : m.scale = false) (coeffs : List ℝ)
    (hc : coeffs ≠ []) (a b : ℝ) :
    f.integral m coeffs a b = (∫ x in a..b, f.unnormalized m coeffs x) * ((m.hi - m.lo) / 2) := by
  simp only [Family.unnormalized, shape_eq]
  rw [integral_of_anti_unscaled m hs _ _ _ f.anti (anti_hasDeriv f) (basis_continuous f), integral_eq f m coeffs hc]
  ring

/-- C61: without scaling it is right for a space of width 2, such as [-1, 1]. Missing from the full claim: the cases of
`polynomial_integral_violated`, `bernstein_integral_violated`. -/
theorem polynomial_integral_unscaled_partial (f : Family) (m : PolyPdf) (hs : m.scale = false) (hw : m.hi - m.lo = 2)
    (coeffs : List ℝ) (hc : coeffs ≠ []) (a b : ℝ) :
    f.integral m coeffs a b = ∫ x in a..b, f.unnormalized m coeffs x := by
  rw [polynomial_integral_unscaled f m hs coeffs hc, hw]
  norm_num

/-- C61 fails without scaling: the constant polynomial 1 on the space [0, 4], integrated over [0, 4], gives 8. -/
theorem polynomial_integral_violated (f : Family) :
    f.integral ⟨0, 4, false⟩ [1] 0 4 = 8 ∧ ∫ x in (0 : ℝ)..4, f.unnormalized ⟨0, 4, false⟩ [1] x = 4 := by
  have h : ∫ x in (0 : ℝ)..4, f.unnormalized ⟨0, 4, false⟩ [1] x = 4 := by
    have e : ∀ x, f.unnormalized ⟨0, 4, false⟩ [1] x = 1 := by
      intro x
      rw [Family.unnormalized, shape_eq]
      cases f <;> simp [Family.basis, Linear3.val]
    simp [e]
  refine ⟨?_, h⟩
  rw [polynomial_integral_unscaled f _ rfl _ (by simp), h]
  norm_num

/-- C61: the integrals are additive in the limits, so are the ranges of a normalisation. -/
theorem polynomial_integral_adjacent (f : Family) (m : PolyPdf) (coeffs : List ℝ) (hc : coeffs ≠ []) (a b c : ℝ) :
    f.integral m coeffs a b + f.integral m coeffs b c = f.integral m coeffs a c := by
  rw [integral_eq f m coeffs hc, integral_eq f m coeffs hc, integral_eq f m coeffs hc]
  ring

/-- A quadratic Legendre pdf on [0, 10] meets the hypotheses; the integral over the whole space is that of the constant. -/
example : Family.legendre.integral ⟨0, 10, true⟩ [1, 1 / 2, 1 / 3] 0 10 = 10 := by
  rw [integral_eq _ _ _ (by simp)]
  simp [Finset.sum_range_succ, Family.anti, PolyPdf.rescale, Linear3.val, legendre3]
  norm_num

/-! ### the basis functions are the classical polynomials (C72) -/

/-- C72: the density is the linear combination of the basis polynomials with the given coefficients, at the point mapped
linearly from the space to [-1, 1]. -/
theorem polynomial_pdf (f : Family) (m : PolyPdf) (hs : m.scale = true) (coeffs : List ℝ) (x : ℝ) :
    f.unnormalized m coeffs x
      = ∑ k ∈ Finset.range coeffs.length, coeffs.getD k 0 * f.basis k ((2 * x - m.lo - m.hi) / (m.hi - m.lo)) := by
  rw [Family.unnormalized, shape_eq]
  unfold PolyPdf.rescale
  rw [if_pos hs]

/-- C72: the space is mapped onto [-1, 1]. -/
theorem polynomial_scaling (m : PolyPdf) (hm : m.lo < m.hi) (hs : m.scale = true) :
    m.rescale m.lo = -1 ∧ m.rescale m.hi = 1 ∧ ∀ x, m.lo ≤ x → x ≤ m.hi → -1 ≤ m.rescale x ∧ m.rescale x ≤ 1 := by
  have hw : 0 < m.hi - m.lo := by linarith
  unfold PolyPdf.rescale
  simp only [hs, if_true]
  refine ⟨?_, ?_, ?_⟩
  · rw [div_eq_iff hw.ne']; ring
  · rw [div_eq_iff hw.ne']; ring
  · intro x h1 h2
    rw [le_div_iff₀ hw, div_le_iff₀ hw]
    constructor <;> linarith

/-- C72: Chebyshev polynomials of the first kind. -/
theorem chebyshev_basis (k : ℕ) (θ : ℝ) : Family.chebyshev.basis k (Real.cos θ) = Real.cos (k * θ) := by
  have h : ∀ x : ℝ, Family.chebyshev.basis k x = (Polynomial.Chebyshev.T ℝ k).eval x := by
    intro x
    refine two_step (fun k => cheb3.val x k) (fun k => (Polynomial.Chebyshev.T ℝ k).eval x) ?_ ?_ ?_ k
    · simp [Linear3.val]
    · simp [Linear3.val, cheb3]
    · intro n h0 h1
      beta_reduce at h0 h1 ⊢
      rw [Linear3.val, h0, h1]
      push_cast
      rw [Polynomial.Chebyshev.T_add_two]
      simp [cheb3]
      ring
  rw [h]
  have := Polynomial.Chebyshev.T_real_cos θ k
  rw [this]
  norm_cast

/-- C72: Chebyshev polynomials of the second kind. -/
theorem chebyshev2_basis (k : ℕ) (θ : ℝ) :
    Family.chebyshev2.basis k (Real.cos θ) * Real.sin θ = Real.sin ((k + 1) * θ) := by
  have h : ∀ x : ℝ, Family.chebyshev2.basis k x = (Polynomial.Chebyshev.U ℝ k).eval x := by
    intro x
    refine two_step (fun k => cheb23.val x k) (fun k => (Polynomial.Chebyshev.U ℝ k).eval x) ?_ ?_ ?_ k
    · simp [Linear3.val]
    · simp [Linear3.val, cheb23]
    · intro n h0 h1
      beta_reduce at h0 h1 ⊢
      rw [Linear3.val, h0, h1]
      push_cast
      rw [Polynomial.Chebyshev.U_add_two]
      simp [cheb23]
      ring
  rw [h]
  have := Polynomial.Chebyshev.U_real_cos θ k
  rw [this]
  norm_cast

/-- C72: Legendre, Laguerre and Hermite polynomials satisfy Bonnet's and the textbook recurrences, from 1 and x, 1 - x, 2x. -/
theorem other_bases (x : ℝ) :
    (Family.legendre.basis 0 x = 1 ∧ Family.legendre.basis 1 x = x ∧ ∀ n : ℕ,
      (n + 2) * Family.legendre.basis (n + 2) x
        = (2 * n + 3) * x * Family.legendre.basis (n + 1) x - (n + 1) * Family.legendre.basis n x) ∧
    (Family.laguerre.basis 0 x = 1 ∧ Family.laguerre.basis 1 x = 1 - x ∧ ∀ n : ℕ,
      (n + 2) * Family.laguerre.basis (n + 2) x
        = (2 * n + 3 - x) * Family.laguerre.basis (n + 1) x - (n + 1) * Family.laguerre.basis n x) ∧
    (Family.hermite.basis 0 x = 1 ∧ Family.hermite.basis 1 x = 2 * x ∧ ∀ n : ℕ,
      Family.hermite.basis (n + 2) x
        = 2 * x * Family.hermite.basis (n + 1) x - 2 * (n + 1) * Family.hermite.basis n x) := by
  refine ⟨⟨rfl, ?_, fun n => legendre_rec x n⟩, ⟨rfl, ?_, ?_⟩, rfl, ?_, ?_⟩
  · simp [Family.basis, Linear3.val, legendre3]
  · simp [Family.basis, Linear3.val, laguerre3]; ring
  · intro n
    have := laguerre_rec 0 x n
    simp only [Family.basis]
    linear_combination this
  · simp [Family.basis, Linear3.val, hermite3]
  · intro n
    simp only [Family.basis]
    rw [Linear3.val]
    simp only [hermite3]
    ring

end Zfit.Num
