import Mathlib.LinearAlgebra.Matrix.NonsingularInverse
import Mathlib.Analysis.Matrix.PosDef
import Mathlib.Data.Real.StarOrdered
import Mathlib.Tactic.Linarith
import Verif.Wrap.Props

/-!
# The estimated distance to minimum (zfit/minimizers/termination.py, C103)

Gradients and hessians are vectors and matrices of real numbers.
-/

namespace Zfit.Wrap
open Matrix
variable {n : Type} [Fintype n] [DecidableEq n]

/-- `calculate_edm` (termination.py:66-67): `grad @ inv_hesse @ grad / 2`. -/
noncomputable def calculateEdm (g : n → ℝ) (v : Matrix n n ℝ) : ℝ := (g ᵥ* v) ⬝ᵥ g / 2

/-- `calculate_edm_hesse` (termination.py:70-75): `grad @ solve(hessian, grad) / 2`; `none` is the `LinAlgError` of a singular matrix. -/
noncomputable def calculateEdmHesse (g : n → ℝ) (h : Matrix n n ℝ) : Option ℝ :=
  if h.det = 0 then none else some (g ⬝ᵥ (h⁻¹ *ᵥ g) / 2)

/-- `EDM._calculate` (termination.py:106-127): the gradient and the inverse hessian of the result's approximations if it has them,
otherwise those of the loss. -/
noncomputable def edmValue (approxGrad : Option (n → ℝ)) (approxInv : Option (Matrix n n ℝ)) (lossGrad : n → ℝ) (lossHesse : Matrix n n ℝ) : ℝ :=
  let g := approxGrad.getD lossGrad
  let edm := match approxInv with
    | none => (calculateEdmHesse g lossHesse).getD 999999
    | some v => calculateEdm g v
  if edm < 0 then 999999 else edm

/-- A parabola with minimum at `m`, curvature `h` and value `c` there. -/
noncomputable def parabola (h : Matrix n n ℝ) (m : n → ℝ) (c : ℝ) (x : n → ℝ) : ℝ := c + (x - m) ⬝ᵥ (h *ᵥ (x - m)) / 2

/-- Its gradient. -/
def parabolaGrad (h : Matrix n n ℝ) (m x : n → ℝ) : n → ℝ := h *ᵥ (x - m)

/-- The difference of the parabola at a displaced point: its gradient is the linear part (the definition of `parabolaGrad` is right). -/
theorem parabola_expand (h : Matrix n n ℝ) (hs : h.IsSymm) (m : n → ℝ) (c : ℝ) (x d : n → ℝ) :
    parabola h m c (x + d) = parabola h m c x + parabolaGrad h m x ⬝ᵥ d + d ⬝ᵥ (h *ᵥ d) / 2 := by
  have e : x + d - m = (x - m) + d := by abel
  have hsym : (x - m) ⬝ᵥ (h *ᵥ d) = (h *ᵥ (x - m)) ⬝ᵥ d := by
    rw [dotProduct_mulVec, ← mulVec_transpose, hs.eq]
  unfold parabola parabolaGrad
  rw [e, mulVec_add, add_dotProduct, dotProduct_add, dotProduct_add, hsym, dotProduct_comm d (h *ᵥ (x - m))]
  ring

theorem edmHesse_parabola (h : Matrix n n ℝ) (hs : h.IsSymm) (hd : h.det ≠ 0) (m : n → ℝ) (c : ℝ) (x : n → ℝ) :
    calculateEdmHesse (parabolaGrad h m x) h = some (parabola h m c x - c) := by
  unfold calculateEdmHesse parabola parabolaGrad
  rw [if_neg hd, mulVec_mulVec, nonsing_inv_mul h (isUnit_iff_ne_zero.2 hd), one_mulVec, dotProduct_comm]
  congr 1
  ring

theorem edm_parabola_inv (h : Matrix n n ℝ) (hd : h.det ≠ 0) (m : n → ℝ) (c : ℝ) (x : n → ℝ) :
    calculateEdm (parabolaGrad h m x) h⁻¹ = parabola h m c x - c := by
  unfold calculateEdm parabola parabolaGrad
  rw [← dotProduct_mulVec, mulVec_mulVec, nonsing_inv_mul h (isUnit_iff_ne_zero.2 hd), one_mulVec, dotProduct_comm]
  ring

/-- C103: for a parabola with a positive definite curvature the criterion is the distance of the loss to its minimum `c`, whether it is
calculated from the loss, from the gradient of the minimiser or with its inverse hessian. -/
theorem edm_is_distance (h : Matrix n n ℝ) (hp : h.PosDef) (m : n → ℝ) (c : ℝ) (x : n → ℝ) (g : Option (n → ℝ)) (v : Option (Matrix n n ℝ))
    (hg : g = none ∨ g = some (parabolaGrad h m x)) (hv : v = none ∨ v = some h⁻¹) :
    edmValue g v (parabolaGrad h m x) h = parabola h m c x - c ∧ (∀ y, c ≤ parabola h m c y) ∧ parabola h m c m = c := by
  have hd : h.det ≠ 0 := hp.det_pos.ne'
  have hs : h.IsSymm := by
    have := hp.isHermitian
    rw [IsHermitian, conjTranspose_eq_transpose_of_trivial] at this
    exact this
  have hmin : ∀ y, c ≤ parabola h m c y := by
    intro y
    have := hp.posSemidef.dotProduct_mulVec_nonneg (y - m)
    rw [star_trivial] at this
    unfold parabola
    linarith
  have hg' : g.getD (parabolaGrad h m x) = parabolaGrad h m x := by rcases hg with rfl | rfl <;> rfl
  refine ⟨?_, hmin, by simp [parabola]⟩
  unfold edmValue
  rw [hg']
  have hnn : ¬ parabola h m c x - c < 0 := by linarith [hmin x]
  rcases hv with rfl | rfl
  · simp only [edmHesse_parabola h hs hd m c x, Option.getD_some, if_neg hnn]
  · simp only [edm_parabola_inv h hd m c x, if_neg hnn]

/-- C103: such a fit has converged exactly if the loss is less than `tol * errordef` above its minimum. -/
theorem edm_converged (h : Matrix n n ℝ) (hp : h.PosDef) (m : n → ℝ) (c : ℝ) (x : n → ℝ) (tol errordef : ℝ) :
    Smaller (some (edmValue none none (parabolaGrad h m x) h)) (critGoal tol errordef) ↔ parabola h m c x < c + tol * errordef := by
  rw [(edm_is_distance h hp m c x none none (Or.inl rfl) (Or.inl rfl)).1]
  unfold Smaller critGoal
  constructor
  · rintro ⟨a, ha, hlt⟩
    simp only [Option.some.injEq] at ha
    linarith
  · intro hlt
    exact ⟨_, rfl, by linarith⟩

/-- C103: the criterion is never negative, whatever the gradient and the hessian. -/
theorem edm_nonneg (g : Option (n → ℝ)) (v : Option (Matrix n n ℝ)) (g' : n → ℝ) (h : Matrix n n ℝ) : 0 ≤ edmValue g v g' h := by
  unfold edmValue
  dsimp only
  split_ifs with hneg
  · norm_num
  · exact not_lt.1 hneg

/-- C103: a singular hessian does not count as converged (for a tolerance below 999999). -/
theorem edm_singular (g' : n → ℝ) (h : Matrix n n ℝ) (hd : h.det = 0) : edmValue none none g' h = 999999 := by
  unfold edmValue calculateEdmHesse
  simp [hd]

/-- C103: nor does a direction in which the loss is curved downwards. -/
theorem edm_negative (g' : n → ℝ) (h : Matrix n n ℝ) (hd : h.det ≠ 0) (hneg : g' ⬝ᵥ (h⁻¹ *ᵥ g') < 0) : edmValue none none g' h = 999999 := by
  unfold edmValue calculateEdmHesse
  dsimp only
  rw [Option.getD_none, if_neg hd, Option.getD_some, if_pos (by linarith)]

example : (1 : Matrix (Fin 2) (Fin 2) ℝ).PosDef := PosDef.one

/-- C104, the part that holds: where the loss is a parabola with a positive definite curvature, a point that meets the criterion is less than
`tol * errordef` above every other point. Missing from the full claim: the cases of `edm_saddle_violated`, `edm_maximum_violated`,
`edm_documented_violated`. -/
theorem edm_minimum_partial (h : Matrix n n ℝ) (hp : h.PosDef) (m : n → ℝ) (c : ℝ) (x : n → ℝ) (tol errordef : ℝ)
    (hc : Smaller (some (edmValue none none (parabolaGrad h m x) h)) (critGoal tol errordef)) (y : n → ℝ) :
    parabola h m c x < parabola h m c y + tol * errordef := by
  have h1 := (edm_converged h hp m c x tol errordef).1 hc
  have h2 := (edm_is_distance h hp m c x none none (Or.inl rfl) (Or.inl rfl)).2.1 y
  linarith

/-- C104 fails: a point where the gradient vanishes counts as converged with criterion 0 although the loss is curved downwards there; also at
a maximum. -/
theorem edm_saddle_violated (h : Matrix n n ℝ) (hd : h.det ≠ 0) (tol errordef : ℝ) (ht : 0 < tol * errordef) :
    Smaller (some (edmValue none none (0 : n → ℝ) h)) (critGoal tol errordef) := by
  refine ⟨_, rfl, ?_⟩
  unfold edmValue calculateEdmHesse critGoal
  simp [hd, ht]

/-- C104, an instance: at the maximum of `-x ^ 2 / 2` the criterion is 0, but other points are lower by any amount. -/
theorem edm_maximum_violated : Smaller (some (edmValue none none (parabolaGrad (-1 : Matrix (Fin 1) (Fin 1) ℝ) 0 0) (-1))) (critGoal 0.001 0.5) ∧
    ∀ d : ℝ, ∃ y, parabola (-1 : Matrix (Fin 1) (Fin 1) ℝ) 0 0 y + d < parabola (-1 : Matrix (Fin 1) (Fin 1) ℝ) 0 0 0 := by
  constructor
  · have := edm_saddle_violated (-1 : Matrix (Fin 1) (Fin 1) ℝ) (by simp) 0.001 0.5 (by norm_num)
    simpa [parabolaGrad] using this
  · intro d
    refine ⟨fun _ => 2 * (|d| + 1), ?_⟩
    simp only [parabola, sub_zero, neg_mulVec, one_mulVec, dotProduct_neg, dotProduct_zero, neg_zero, mulVec_zero, zero_div, add_zero, zero_add]
    simp only [dotProduct, Fin.sum_univ_one]
    nlinarith [abs_nonneg d, le_abs_self d]

/-- C104 fails: the formula of the documentation, `g^T H^{-1} g`, is twice the criterion. -/
theorem edm_documented_violated (g : n → ℝ) (h : Matrix n n ℝ) (hd : h.det ≠ 0) : ∃ e, calculateEdmHesse g h = some e ∧ g ⬝ᵥ (h⁻¹ *ᵥ g) = 2 * e :=
  ⟨_, if_neg hd, by ring⟩

end Zfit.Wrap
