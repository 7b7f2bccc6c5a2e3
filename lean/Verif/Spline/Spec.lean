import Mathlib.Analysis.SpecialFunctions.Pow.Real

/-! What a polyharmonic spline is (documentation of `interpolate_spline`): the interpolant has the form
`f(x) = ∑ w_i φ(‖x - c_i‖) + vᵀ x + b`, with `φ(r) = r^k` for odd and `r^k log r` for even `k`; it fits the values at the points;
the vector `w` sums to zero and is orthogonal to the coordinates of the points. -/

namespace Zfit.Spline

/-- The radial basis function of order `k`. -/
noncomputable def radial (k : ℕ) (r : ℝ) : ℝ := if k % 2 = 0 then r ^ k * Real.log r else r ^ k

/-- The euclidean distance. -/
noncomputable def dist {κ : Type} [Fintype κ] (x y : κ → ℝ) : ℝ := Real.sqrt (∑ k, (x k - y k) ^ 2)

/-- The total of a histogram. -/
def total {β : Type} [Fintype β] (f : β → ℝ) : ℝ := ∑ b, f b

end Zfit.Spline
