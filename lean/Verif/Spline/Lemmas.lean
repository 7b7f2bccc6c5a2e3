import Verif.Spline.Model

namespace Zfit.Spline

open Matrix

section

variable {ι κ : Type} [Fintype ι] [DecidableEq ι] [Fintype κ] [DecidableEq κ]

/-- The equations of the interpolation, written out. -/
theorem lhs_mulVec (c : ι → κ → ℝ) (order : ℕ) (reg : ℝ) (w : ι → ℝ) (v : κ ⊕ Unit → ℝ) :
    lhs c order reg *ᵥ Sum.elim w v = Sum.elim (matrixA c order reg *ᵥ w + matrixB c *ᵥ v) ((matrixB c)ᵀ *ᵥ w) := by
  rw [lhs, Matrix.fromBlocks_mulVec]
  simp

theorem solve_of (c : ι → κ → ℝ) (f : ι → ℝ) (order : ℕ) (reg : ℝ) (hu : IsUnit (lhs c order reg).det) (w : ι → ℝ) (v : κ ⊕ Unit → ℝ)
    (h1 : matrixA c order reg *ᵥ w + matrixB c *ᵥ v = f) (h2 : (matrixB c)ᵀ *ᵥ w = 0) :
    solveInterpolation c f order reg = some (w, v) := by
  have h : lhs c order reg *ᵥ Sum.elim w v = rhs f := by
    rw [lhs_mulVec, h1, h2]
    rfl
  have h3 : (lhs c order reg)⁻¹ *ᵥ rhs f = Sum.elim w v := by
    rw [← h, Matrix.mulVec_mulVec, Matrix.nonsing_inv_mul _ hu, Matrix.one_mulVec]
  unfold solveInterpolation
  rw [if_pos hu, h3]
  rfl

theorem solve_some (c : ι → κ → ℝ) (f : ι → ℝ) (order : ℕ) (reg : ℝ) (hu : IsUnit (lhs c order reg).det) :
    ∃ w v, solveInterpolation c f order reg = some (w, v) ∧ matrixA c order reg *ᵥ w + matrixB c *ᵥ v = f ∧ (matrixB c)ᵀ *ᵥ w = 0 := by
  obtain ⟨wv, hwv⟩ : ∃ wv, wv = (lhs c order reg)⁻¹ *ᵥ rhs f := ⟨_, rfl⟩
  have he : Sum.elim (fun i => wv (Sum.inl i)) (fun k => wv (Sum.inr k)) = wv := Sum.elim_comp_inl_inr wv
  have h : lhs c order reg *ᵥ Sum.elim (fun i => wv (Sum.inl i)) (fun k => wv (Sum.inr k)) = rhs f := by
    rw [he, hwv, Matrix.mulVec_mulVec, Matrix.mul_nonsing_inv _ hu, Matrix.one_mulVec]
  rw [lhs_mulVec] at h
  refine ⟨fun i => wv (Sum.inl i), fun k => wv (Sum.inr k), ?_, ?_, ?_⟩
  · unfold solveInterpolation
    rw [if_pos hu, ← hwv]
  · funext i
    exact congrFun h (Sum.inl i)
  · funext k
    exact congrFun h (Sum.inr k)

theorem interpolate_of (c : ι → κ → ℝ) (f : ι → ℝ) (x : κ → ℝ) (order : ℕ) (reg : ℝ) (hu : IsUnit (lhs c order reg).det) (w : ι → ℝ)
    (v : κ ⊕ Unit → ℝ) (h1 : matrixA c order reg *ᵥ w + matrixB c *ᵥ v = f) (h2 : (matrixB c)ᵀ *ᵥ w = 0) :
    interpolate c f x order reg = some (applyInterpolation x c w v order) := by
  unfold interpolate
  rw [solve_of c f order reg hu w v h1 h2]

theorem apply_linear (x : κ → ℝ) (c : ι → κ → ℝ) (a b : ℝ) (w w' : ι → ℝ) (v v' : κ ⊕ Unit → ℝ) (order : ℕ) :
    applyInterpolation x c (a • w + b • w') (a • v + b • v') order =
      a * applyInterpolation x c w v order + b * applyInterpolation x c w' v' order := by
  simp only [applyInterpolation, Pi.add_apply, Pi.smul_apply, smul_eq_mul, mul_add, Finset.sum_add_distrib, Finset.mul_sum]
  have e : ∀ (p q r : ℝ), p * (q * r) = q * (p * r) := fun p q r => by ring
  simp only [e _ a, e _ b]
  ring

/-- A matrix is regular if only zero is mapped to zero. -/
theorem isUnit_lhs_of (c : ι → κ → ℝ) (order : ℕ) (reg : ℝ)
    (h : ∀ (w : ι → ℝ) (v : κ ⊕ Unit → ℝ), matrixA c order reg *ᵥ w + matrixB c *ᵥ v = 0 → (matrixB c)ᵀ *ᵥ w = 0 → w = 0 ∧ v = 0) :
    IsUnit (lhs c order reg).det := by
  rw [← Matrix.isUnit_iff_isUnit_det, ← Matrix.mulVec_injective_iff_isUnit]
  have h0 : ∀ u, lhs c order reg *ᵥ u = 0 → u = 0 := by
    intro u hu
    obtain ⟨w, v, rfl⟩ : ∃ w v, u = Sum.elim w v := ⟨fun i => u (Sum.inl i), fun k => u (Sum.inr k), (Sum.elim_comp_inl_inr u).symm⟩
    rw [lhs_mulVec] at hu
    obtain ⟨rfl, rfl⟩ := h w v (funext fun i => congrFun hu (Sum.inl i)) (funext fun k => congrFun hu (Sum.inr k))
    funext s
    cases s <;> rfl
  intro u u' huu
  have := h0 (u - u') (by rw [Matrix.mulVec_sub]; exact sub_eq_zero.2 huu)
  exact sub_eq_zero.1 this

end

end Zfit.Spline
