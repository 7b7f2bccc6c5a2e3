import Verif.Num.PolyModel
import Mathlib.Analysis.Calculus.Deriv.Mul
import Mathlib.Analysis.Calculus.Deriv.Add
import Mathlib.MeasureTheory.Integral.IntervalIntegral.FundThmCalculus
import Mathlib.Tactic.LinearCombination
import Mathlib.Tactic.FieldSimp
import Mathlib.Data.List.GetD

/-! Lemmas about the polynomial pdfs. -/

namespace Zfit.Num

/-- The polynomials of a recurrence. -/
noncomputable def poly (p0 p1 : ℝ) (r : ℝ → ℝ → ℕ → ℝ → ℝ) (x : ℝ) : ℕ → ℝ
  | 0 => p0
  | 1 => p1
  | n + 2 => r (poly p0 p1 r x (n + 1)) (poly p0 p1 r x n) (n + 1) x

theorem doRecurrence_eq (x p0 p1 : ℝ) (d : ℕ) (r : ℝ → ℝ → ℕ → ℝ → ℝ) :
    doRecurrence x p0 p1 d r = (List.range (d - 1 + 2)).map (poly p0 p1 r x) := by
  unfold doRecurrence
  generalize d - 1 = k
  induction k with
  | zero => simp [poly, List.range_succ]
  | succ k ih =>
    rw [List.range'_1_concat, List.foldl_append, ih]
    simp only [List.foldl_cons, List.foldl_nil, List.length_map, List.length_range]
    rw [show k + 1 + 2 = (k + 2) + 1 from rfl, List.range_succ (n := k + 2), List.map_append]
    congr 1
    simp only [List.map_cons, List.map_nil]
    rw [List.getD_eq_getElem _ _ (by simp), List.getD_eq_getElem _ _ (by simp)]
    simp only [List.getElem_map, List.getElem_range]
    rw [show k + 2 - 1 = k + 1 from rfl, show k + 2 - 2 = k from rfl, poly, Nat.add_comm 1 k]

theorem zip_sum (coeffs : List ℝ) (f : ℕ → ℝ) (n : ℕ) (h : coeffs.length ≤ n) :
    (List.zipWith (fun c p => c * p) coeffs ((List.range n).map f)).sum
      = ∑ k ∈ Finset.range coeffs.length, coeffs.getD k 0 * f k := by
  induction coeffs generalizing f n with
  | nil => simp
  | cons c cs ih =>
    cases n with
    | zero => simp at h
    | succ n =>
      rw [List.range_succ_eq_map, List.map_cons, List.map_map, List.zipWith_cons_cons, List.sum_cons,
        ih (f ∘ Nat.succ) n (by simpa using h), List.length_cons, Finset.sum_range_succ']
      simp [add_comm]

theorem createPoly_eq (x p0 p1 : ℝ) (coeffs : List ℝ) (r : ℝ → ℝ → ℕ → ℝ → ℝ) :
    createPoly x p0 p1 coeffs r = ∑ k ∈ Finset.range coeffs.length, coeffs.getD k 0 * poly p0 p1 r x k := by
  unfold createPoly
  rw [doRecurrence_eq]
  exact zip_sum _ _ _ (by omega)

theorem recurrence_get (x p0 p1 : ℝ) (d k : ℕ) (r : ℝ → ℝ → ℕ → ℝ → ℝ) (h : k ≤ d) :
    (doRecurrence x p0 p1 d r).getD k 0 = poly p0 p1 r x k := by
  rw [doRecurrence_eq, List.getD_eq_getElem _ _ (by simp; omega)]
  simp

/-! ### derivatives -/

/-- A three-term recurrence that is linear in `x`. -/
structure Linear3 where
  a1 : ℝ
  b1 : ℝ
  α : ℕ → ℝ
  β : ℕ → ℝ
  γ : ℕ → ℝ

/-- Value and derivative. -/
noncomputable def Linear3.val (L : Linear3) (x : ℝ) : ℕ → ℝ
  | 0 => 1
  | 1 => L.a1 + L.b1 * x
  | n + 2 => (L.α n + L.β n * x) * L.val x (n + 1) + L.γ n * L.val x n

noncomputable def Linear3.der (L : Linear3) (x : ℝ) : ℕ → ℝ
  | 0 => 0
  | 1 => L.b1
  | n + 2 => L.β n * L.val x (n + 1) + (L.α n + L.β n * x) * L.der x (n + 1) + L.γ n * L.der x n

theorem Linear3.hasDeriv (L : Linear3) (n : ℕ) (x : ℝ) : HasDerivAt (fun x => L.val x n) (L.der x n) x := by
  induction n using Nat.strongRecOn with
  | _ n ih =>
    match n with
    | 0 => exact hasDerivAt_const x (1 : ℝ)
    | 1 =>
      have h := ((hasDerivAt_id x).const_mul L.b1).const_add L.a1
      simp only [mul_one, id_eq] at h
      exact h
    | n + 2 =>
      have h1 := ih (n + 1) (by omega)
      have h0 := ih n (by omega)
      have hl := ((hasDerivAt_id x).const_mul (L.β n)).const_add (L.α n)
      simp only [mul_one, id_eq] at hl
      exact (hl.mul h1).add (h0.const_mul (L.γ n))

noncomputable def legendre3 : Linear3 :=
  ⟨0, 1, fun _ => 0, fun n => (2 * n + 3) / (n + 2), fun n => -(n + 1) / (n + 2)⟩
noncomputable def cheb3 : Linear3 := ⟨0, 1, fun _ => 0, fun _ => 2, fun _ => -1⟩
noncomputable def cheb23 : Linear3 := ⟨0, 2, fun _ => 0, fun _ => 2, fun _ => -1⟩
noncomputable def hermite3 : Linear3 := ⟨0, 2, fun _ => 0, fun _ => 2, fun n => -(2 * (n + 1))⟩
noncomputable def laguerre3 (a : ℝ) : Linear3 :=
  ⟨1 + a, -1, fun n => (2 * n + 3 + a) / (n + 2), fun n => -1 / (n + 2), fun n => -(n + 1 + a) / (n + 2)⟩

theorem two_step (f g : ℕ → ℝ) (h0 : f 0 = g 0) (h1 : f 1 = g 1)
    (h : ∀ n, f n = g n → f (n + 1) = g (n + 1) → f (n + 2) = g (n + 2)) (n : ℕ) : f n = g n := by
  induction n using Nat.strongRecOn with
  | _ n ih =>
    match n with
    | 0 => exact h0
    | 1 => exact h1
    | n + 2 => exact h n (ih n (by omega)) (ih (n + 1) (by omega))

theorem legendre_val (x : ℝ) (n : ℕ) : poly 1 x legendreRecurrence x n = legendre3.val x n := by
  apply two_step
  · rfl
  · simp [poly, Linear3.val, legendre3]
  · intro n h0 h1
    rw [poly, h0, h1, Linear3.val, legendreRecurrence]
    simp only [legendre3]
    have : (n : ℝ) + 2 ≠ 0 := by positivity
    push_cast
    have h2 : (n : ℝ) + 1 + 1 = n + 2 := by ring
    rw [h2]
    field_simp
    ring

theorem cheb_val (x : ℝ) (n : ℕ) : poly 1 x chebyshevRecurrence x n = cheb3.val x n := by
  apply two_step
  · rfl
  · simp [poly, Linear3.val, cheb3]
  · intro n h0 h1
    rw [poly, h0, h1, Linear3.val, chebyshevRecurrence]
    simp only [cheb3]
    ring

theorem cheb2_val (x : ℝ) (n : ℕ) : poly 1 (x * 2) chebyshevRecurrence x n = cheb23.val x n := by
  apply two_step
  · rfl
  · simp [poly, Linear3.val, cheb23, mul_comm]
  · intro n h0 h1
    rw [poly, h0, h1, Linear3.val, chebyshevRecurrence]
    simp only [cheb23]
    ring

theorem hermite_val (x : ℝ) (n : ℕ) : poly 1 (2 * x) hermiteRecurrence x n = hermite3.val x n := by
  apply two_step
  · rfl
  · simp [poly, Linear3.val, hermite3]
  · intro n h0 h1
    rw [poly, h0, h1, Linear3.val, hermiteRecurrence]
    simp only [hermite3]
    push_cast
    ring

theorem laguerre_val (a x : ℝ) (n : ℕ) :
    poly 1 (1 + a - x) (laguerreRecurrence a) x n = (laguerre3 a).val x n := by
  apply two_step
  · rfl
  · simp [poly, Linear3.val, laguerre3]; ring
  · intro n h0 h1
    rw [poly, h0, h1, Linear3.val, laguerreRecurrence]
    simp only [laguerre3]
    have : (n : ℝ) + 2 ≠ 0 := by positivity
    push_cast
    have h2 : (n : ℝ) + 1 + 1 = n + 2 := by ring
    rw [h2]
    field_simp
    ring

/-! ### the antiderivatives -/

theorem legendre_rec (x : ℝ) (n : ℕ) :
    ((n : ℝ) + 2) * legendre3.val x (n + 2) = (2 * n + 3) * x * legendre3.val x (n + 1) - (n + 1) * legendre3.val x n := by
  rw [Linear3.val]
  simp only [legendre3]
  have : (n : ℝ) + 2 ≠ 0 := by positivity
  field_simp
  ring

theorem legendre_drec (x : ℝ) (n : ℕ) :
    ((n : ℝ) + 2) * legendre3.der x (n + 2) = (2 * n + 3) * (legendre3.val x (n + 1) + x * legendre3.der x (n + 1))
      - (n + 1) * legendre3.der x n := by
  rw [Linear3.der]
  simp only [legendre3]
  have : (n : ℝ) + 2 ≠ 0 := by positivity
  field_simp
  ring

theorem legendre_id (x : ℝ) (n : ℕ) :
    legendre3.der x (n + 1) - x * legendre3.der x n = (n + 1) * legendre3.val x n ∧
    x * legendre3.der x (n + 1) - legendre3.der x n = (n + 1) * legendre3.val x (n + 1) := by
  induction n with
  | zero => simp [Linear3.der, Linear3.val, legendre3]
  | succ n ih =>
    obtain ⟨h1, h2⟩ := ih
    have r := legendre_rec x n
    have d := legendre_drec x n
    have hn : (n : ℝ) + 2 ≠ 0 := by positivity
    have k1 : legendre3.der x (n + 2) - x * legendre3.der x (n + 1) = (n + 2) * legendre3.val x (n + 1) := by
      apply mul_left_cancel₀ hn
      linear_combination d + (n + 1) * h2
    constructor
    · push_cast
      linear_combination k1
    · push_cast
      linear_combination x * k1 + x * h2 - h1 - r

theorem legendre_anti (x : ℝ) (n : ℕ) :
    legendre3.der x (n + 2) - legendre3.der x n = (2 * n + 3) * legendre3.val x (n + 1) := by
  have h1 := (legendre_id x (n + 1)).1
  have h2 := (legendre_id x n).2
  push_cast at h1
  linear_combination h1 + h2

theorem cheb_mix (x : ℝ) (n : ℕ) : cheb3.val x (n + 1) = cheb23.val x (n + 1) - x * cheb23.val x n := by
  apply two_step (fun n => cheb3.val x (n + 1)) (fun n => cheb23.val x (n + 1) - x * cheb23.val x n)
  · simp [Linear3.val, cheb3, cheb23]; ring
  · simp [Linear3.val, cheb3, cheb23]; ring
  · intro n h0 h1
    beta_reduce at h0 h1 ⊢
    rw [Linear3.val, h0, h1]
    rw [show n + 2 + 1 = (n + 1) + 2 from rfl, Linear3.val.eq_3 cheb23 x (n + 1), Linear3.val.eq_3 cheb23 x n]
    simp only [cheb3, cheb23]
    ring

theorem cheb_der (x : ℝ) (n : ℕ) : cheb3.der x (n + 1) = (n + 1) * cheb23.val x n := by
  apply two_step (fun n => cheb3.der x (n + 1)) (fun n => (n + 1) * cheb23.val x n)
  · simp [Linear3.val, Linear3.der, cheb3, cheb23]
  · simp [Linear3.val, Linear3.der, cheb3, cheb23]; ring
  · intro n h0 h1
    beta_reduce at h0 h1 ⊢
    rw [show n + 2 + 1 = (n + 1) + 2 from rfl, Linear3.der, h0, h1, cheb_mix x (n + 1), Linear3.val.eq_3 cheb23 x n]
    simp only [cheb3, cheb23]
    push_cast
    ring

theorem hermite_der (x : ℝ) (n : ℕ) : hermite3.der x (n + 1) = 2 * (n + 1) * hermite3.val x n := by
  apply two_step (fun n => hermite3.der x (n + 1)) (fun n => 2 * (n + 1) * hermite3.val x n)
  · simp [Linear3.val, Linear3.der, hermite3]
  · simp [Linear3.val, Linear3.der, hermite3]; ring
  · intro n h0 h1
    beta_reduce at h0 h1 ⊢
    rw [show n + 2 + 1 = (n + 1) + 2 from rfl, Linear3.der, h0, h1, Linear3.val.eq_3 hermite3 x n]
    simp only [hermite3]
    push_cast
    ring

theorem laguerre_rec (a x : ℝ) (n : ℕ) :
    ((n : ℝ) + 2) * (laguerre3 a).val x (n + 2)
      = (2 * n + 3 + a - x) * (laguerre3 a).val x (n + 1) - (n + 1 + a) * (laguerre3 a).val x n := by
  rw [Linear3.val]
  simp only [laguerre3]
  have : (n : ℝ) + 2 ≠ 0 := by positivity
  field_simp
  ring

theorem laguerre_drec (a x : ℝ) (n : ℕ) :
    ((n : ℝ) + 2) * (laguerre3 a).der x (n + 2)
      = -(laguerre3 a).val x (n + 1) + (2 * n + 3 + a - x) * (laguerre3 a).der x (n + 1)
        - (n + 1 + a) * (laguerre3 a).der x n := by
  rw [Linear3.der]
  simp only [laguerre3]
  have : (n : ℝ) + 2 ≠ 0 := by positivity
  field_simp
  ring

theorem laguerre_mix (x : ℝ) (n : ℕ) :
    (laguerre3 (-1)).val x (n + 1) = (laguerre3 0).val x (n + 1) - (laguerre3 0).val x n := by
  apply two_step (fun n => (laguerre3 (-1)).val x (n + 1)) (fun n => (laguerre3 0).val x (n + 1) - (laguerre3 0).val x n)
  · simp [Linear3.val, laguerre3]
  · simp [Linear3.val, laguerre3]; ring
  · intro n h0 h1
    beta_reduce at h0 h1 ⊢
    have r1 := laguerre_rec (-1) x (n + 1)
    have r2 := laguerre_rec 0 x (n + 1)
    have r3 := laguerre_rec 0 x n
    push_cast at r1 r2
    rw [h0, h1] at r1
    have hn : (n : ℝ) + 1 + 2 ≠ 0 := by positivity
    apply mul_left_cancel₀ hn
    linear_combination r1 - r2 + r3

theorem laguerre_der (x : ℝ) (n : ℕ) : (laguerre3 (-1)).der x (n + 1) = -(laguerre3 0).val x n := by
  apply two_step (fun n => (laguerre3 (-1)).der x (n + 1)) (fun n => -(laguerre3 0).val x n)
  · simp [Linear3.val, Linear3.der, laguerre3]
  · simp [Linear3.val, Linear3.der, laguerre3]; ring
  · intro n h0 h1
    beta_reduce at h0 h1 ⊢
    have d := laguerre_drec (-1) x (n + 1)
    have r3 := laguerre_rec 0 x n
    have mx := laguerre_mix x (n + 1)
    push_cast at d
    rw [h0, h1, mx] at d
    have hn : (n : ℝ) + 1 + 2 ≠ 0 := by positivity
    apply mul_left_cancel₀ hn
    linear_combination d + r3

/-! ### from antiderivatives to integrals -/

/-- Sum of antiderivatives of the terms, with the substitution of the rescaling. -/
theorem integral_of_anti (m : PolyPdf) (hm : m.lo < m.hi) (hs : m.scale = true) (n : ℕ) (c : ℕ → ℝ) (P A : ℕ → ℝ → ℝ)
    (hA : ∀ k x, HasDerivAt (A k) (P k x) x) (hP : ∀ k, Continuous (P k)) (a b : ℝ) :
    ∫ x in a..b, ∑ k ∈ Finset.range n, c k * P k (m.rescale x)
      = (∑ k ∈ Finset.range n, c k * A k (m.rescale b) - ∑ k ∈ Finset.range n, c k * A k (m.rescale a))
        * (1 / 2 * (m.hi - m.lo)) := by
  have hw : m.hi - m.lo ≠ 0 := by linarith
  have hr : ∀ x, HasDerivAt m.rescale (2 / (m.hi - m.lo)) x := by
    intro x
    have h := ((((hasDerivAt_id x).const_mul (2 : ℝ)).sub_const m.lo).sub_const m.hi).div_const (m.hi - m.lo)
    simp only [mul_one, id_eq] at h
    have e : m.rescale = fun x => (2 * x - m.lo - m.hi) / (m.hi - m.lo) := by
      funext x
      unfold PolyPdf.rescale
      rw [if_pos hs]
    rw [e]
    exact h
  have hcr : Continuous m.rescale := continuous_iff_continuousAt.2 fun x => (hr x).continuousAt
  have key := intervalIntegral.integral_eq_sub_of_hasDerivAt
    (f := fun x => (∑ k ∈ Finset.range n, c k * A k (m.rescale x)) * (1 / 2 * (m.hi - m.lo)))
    (f' := fun x => ∑ k ∈ Finset.range n, c k * P k (m.rescale x)) (a := a) (b := b)
    (fun x _ => by
      have hsum : HasDerivAt (fun x => ∑ k ∈ Finset.range n, c k * A k (m.rescale x))
          (∑ k ∈ Finset.range n, c k * (P k (m.rescale x) * (2 / (m.hi - m.lo)))) x :=
        HasDerivAt.fun_sum fun k _ => ((hA k (m.rescale x)).comp x (hr x)).const_mul (c k)
      have h := hsum.mul_const (1 / 2 * (m.hi - m.lo))
      have e : (∑ k ∈ Finset.range n, c k * (P k (m.rescale x) * (2 / (m.hi - m.lo)))) * (1 / 2 * (m.hi - m.lo))
          = ∑ k ∈ Finset.range n, c k * P k (m.rescale x) := by
        rw [Finset.sum_mul]
        refine Finset.sum_congr rfl fun k _ => ?_
        field_simp
      rw [e] at h
      exact h)
    (Continuous.intervalIntegrable (continuous_finset_sum _ fun k _ => continuous_const.mul ((hP k).comp hcr)) a b)
  rw [key]
  ring

/-- Without scaling. -/
theorem integral_of_anti_unscaled (m : PolyPdf) (hs : m.scale = false) (n : ℕ) (c : ℕ → ℝ) (P A : ℕ → ℝ → ℝ)
    (hA : ∀ k x, HasDerivAt (A k) (P k x) x) (hP : ∀ k, Continuous (P k)) (a b : ℝ) :
    ∫ x in a..b, ∑ k ∈ Finset.range n, c k * P k (m.rescale x)
      = ∑ k ∈ Finset.range n, c k * A k (m.rescale b) - ∑ k ∈ Finset.range n, c k * A k (m.rescale a) := by
  have e : ∀ x, m.rescale x = x := by
    intro x
    unfold PolyPdf.rescale
    rw [hs]
    simp
  simp only [e]
  exact intervalIntegral.integral_eq_sub_of_hasDerivAt
    (fun x _ => HasDerivAt.fun_sum fun k _ => (hA k x).const_mul (c k))
    (Continuous.intervalIntegrable (continuous_finset_sum _ fun k _ => continuous_const.mul (hP k)) a b)

end Zfit.Num
