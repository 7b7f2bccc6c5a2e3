import Mathlib.Analysis.SpecialFunctions.Gamma.Basic
import Mathlib.Analysis.SpecialFunctions.Arsinh
import Mathlib.MeasureTheory.Integral.IntervalIntegral.Basic

/-! The shapes as written in the documentation of zfit's classes (C87), copied from the doc strings; constants in front of a
shape have no meaning, since every density is normalised over the norm range. -/

namespace Zfit.Dist

/-- The density with shape `g` over the range `[a, b]`. -/
noncomputable def normalised (g : ℝ → ℝ) (a b x : ℝ) : ℝ := g x / ∫ t in a..b, g t

/-- What "cumulative distribution function" means for a continuous distribution. -/
def IsCdf (cdf prob : ℝ → ℝ) : Prop := ∀ a b, a ≤ b → cdf b - cdf a = ∫ t in a..b, prob t

/-- What "quantile" means: the smallest number whose cumulative probability reaches `p`. -/
def IsQuantile (q cdf : ℝ → ℝ) : Prop := ∀ p, 0 < p → p < 1 → ∀ t, q p ≤ t ↔ p ≤ cdf t

/-- The classes. -/
noncomputable def docGauss (mu sigma x : ℝ) : ℝ := Real.exp (-(x - mu) ^ 2 / (2 * sigma ^ 2))

/-- "constant between `low`, `high` and zero outside" -/
noncomputable def docUniform (low high : ℝ) : ℝ → ℝ := Set.indicator (Set.Icc low high) fun _ => 1

/-- "Gaussian distribution that is 0 outside of `low`, `high`. Equivalent to the product of Gauss and Uniform." -/
noncomputable def docTruncatedGauss (mu sigma low high x : ℝ) : ℝ := docGauss mu sigma x * docUniform low high x

noncomputable def docCauchy (m gamma x : ℝ) : ℝ := 1 / (gamma * (1 + ((x - m) / gamma) ^ 2))

noncomputable def docLogNormal (mu sigma x : ℝ) : ℝ :=
  1 / (x * sigma * Real.sqrt (2 * Real.pi)) * Real.exp (-(Real.log x - mu) ^ 2 / (2 * sigma ^ 2))

noncomputable def docChiSquared (d x : ℝ) : ℝ := x ^ (d / 2 - 1) * Real.exp (-x / 2)

noncomputable def docStudentT (d mu sigma x : ℝ) : ℝ := (1 + 1 / d * ((x - mu) / sigma) ^ 2) ^ (-(d + 1) / 2)

/-- `e_q(x) = [1 + (1 - q) x]_+ ^ (1 / (1 - q))` -/
noncomputable def eq (q x : ℝ) : ℝ := max (1 + (1 - q) * x) 0 ^ (1 / (1 - q))

noncomputable def docQGauss (q mu sigma x : ℝ) : ℝ := eq q (-((x - mu) / sigma) ^ 2)

open Classical in
noncomputable def docBifurGauss (mu sigmaL sigmaR x : ℝ) : ℝ :=
  if x < mu then Real.exp (-(x - mu) ^ 2 / (2 * sigmaL ^ 2)) else Real.exp (-(x - mu) ^ 2 / (2 * sigmaR ^ 2))

noncomputable def docGamma (gamma beta mu x : ℝ) : ℝ := (x - mu) ^ (gamma - 1) * Real.exp (-(x - mu) / beta)

/-- The documented shape with the documented `Z`, which depends on `x`. -/
noncomputable def docJohnsonSU (mu lambd gamma delta x : ℝ) : ℝ :=
  Real.exp (-(1 / 2) * (gamma + delta * Real.arsinh ((x - mu) / lambd)) ^ 2) /
    (lambd * Real.sqrt (2 * Real.pi) * Real.sqrt (1 + ((x - mu) / lambd) ^ 2) / delta)

noncomputable def docGeneralizedGauss (mu sigma beta x : ℝ) : ℝ := Real.exp (-(|x - mu| / sigma) ^ beta)

end Zfit.Dist
