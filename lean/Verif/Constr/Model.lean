import Verif.Common.Py
import Mathlib.LinearAlgebra.Matrix.NonsingularInverse
import Mathlib.Analysis.SpecialFunctions.Gamma.Basic
import Mathlib.Analysis.SpecialFunctions.Log.Basic

/-! Model of zfit/core/constraint.py: the Gaussian, Poisson and log-normal constraints.

Floating point numbers are real numbers. The log-probabilities of TensorFlow Probability are the formulas of its
documentation (trusted); the Cholesky decomposition is a parameter. Parameters and observations are vectors of numbers:
the values at the time `value()` is called. -/

namespace Zfit.Constr

open Zfit Matrix

/-- What a user gives as `sigma` or `cov`, after `znp.atleast_1d` (constraint.py 234-235, 252): an array of one
dimension with `m` entries, a square matrix, or an array of more dimensions. -/
inductive Input
  | vec (m : ℕ) (v : ℕ → ℝ)
  | mat (m : ℕ) (a : ℕ → ℕ → ℝ)
  | higher

/-- A square matrix of any size. -/
structure Square where
  size : ℕ
  entry : ℕ → ℕ → ℝ

/-- `znp.diag` of a vector. -/
noncomputable def diag (m : ℕ) (v : ℕ → ℝ) : Square := ⟨m, fun i j => if i = j then v i else 0⟩

/-- zfit/core/constraint.py 221-262 `_preprocess_gaussian_constr_sigma_var`, the covariance only. `none` is the placeholder
`-999` used if neither is given. The rejection of parameters among the entries is left out (entries are numbers here). `znp.diag`
in 256 rejects arrays of more than two dimensions. -/
noncomputable def preprocess (cov sigma : Option Input) (legacy : Bool) : Except Err (Option Square) :=
  match sigma, cov with
  | some s, cov =>
    if legacy then .error .valueError
    else if cov.isSome then .error .valueError
    else match s with
      | .vec m v => .ok (some (diag m fun i => v i ^ 2))
      | .mat _ _ => .error .valueError
      | .higher => .error .valueError
  | none, some c =>
    if legacy then .error .valueError
    else match c with
      | .vec m v => .ok (some (diag m v))
      | .mat m a => .ok (some ⟨m, a⟩)
      | .higher => .error .valueError
  | none, none => .ok none

/-- zfit/core/constraint.py 303-333: the covariance from the deprecated `uncertainty`, checked against the numbers of
parameters and observations when it is used. -/
noncomputable def legacyCovariance (nparams nobs : ℕ) (u : Input) : Except Err Square :=
  let c := match u with
    | .vec m v => some (diag m fun i => v i ^ 2)
    | .mat m a => some ⟨m, a⟩
    | .higher => none
  match c with
  | none => .error .shapeIncompatible
  | some c => if nparams = nobs ∧ nobs = c.size then .ok c else .error .shapeIncompatible

/-- A Gaussian constraint: observation, given covariance (`none`: the placeholder) or `uncertainty`. -/
structure Gaussian (n : ℕ) where
  observation : Fin n → ℝ
  cov : Option Square
  uncertainty : Option Input

/-- zfit/core/constraint.py 265-371 `GaussianConstraint.__init__` for `n` parameters and `n'` observations (131-136: the
lengths must agree). -/
noncomputable def gaussianConstraint (n : ℕ) (obs : List ℝ) (uncertainty sigma cov : Option Input) : Except Err (Gaussian n) :=
  match preprocess cov sigma uncertainty.isSome with
  | .error e => .error e
  | .ok c => if obs.length = n then .ok ⟨fun i => obs.getD i 0, c, uncertainty⟩ else .error .shapeIncompatible

/-- zfit/core/constraint.py 367-380 `covariance`; the placeholder is a number, of which no Cholesky decomposition
exists (`InvalidArgumentError`). -/
noncomputable def covariance {n : ℕ} (g : Gaussian n) : Except Err Square :=
  match g.uncertainty with
  | some u => legacyCovariance n n u
  | none => match g.cov with
    | some c => .ok c
    | none => .error .invalidArgument

/-- The matrix of a `Square`. -/
def Square.toMatrix (s : Square) (n : ℕ) : Matrix (Fin n) (Fin n) ℝ := fun i j => s.entry i j

/-- `tfd.MultivariateNormalTriL(loc, scale_tril).log_prob(x)`: with `y = scale_tril⁻¹ (x - loc)` it is
`-|y|²/2 - Σ log scale_tril[i,i] - n/2 log(2π)` (TensorFlow Probability; trusted). -/
noncomputable def mvnLogProb {n : ℕ} (loc : Fin n → ℝ) (L : Matrix (Fin n) (Fin n) ℝ) (x : Fin n → ℝ) : ℝ :=
  let y := L⁻¹ *ᵥ (x - loc)
  Neg.neg (1 / 2) * (y ⬝ᵥ y) - ∑ i, Real.log (L i i) - n / 2 * Real.log (2 * Real.pi)

/-- zfit/core/constraint.py 201-215, 349-352 `value` of the Gaussian constraint; `chol` is `tf.linalg.cholesky`. A covariance
of another size than the number of parameters is rejected by TensorFlow (a size of one may be broadcast by it; this is
not modelled, but counted as rejected). -/
noncomputable def gaussianValue {n : ℕ} (chol : Matrix (Fin n) (Fin n) ℝ → Except Err (Matrix (Fin n) (Fin n) ℝ))
    (g : Gaussian n) (x : Fin n → ℝ) : Except Err ℝ :=
  match covariance g with
  | .error e => .error e
  | .ok c =>
    if c.size = n then
      match chol (c.toMatrix n) with
      | .error e => .error e
      | .ok L => .ok (-(mvnLogProb g.observation L x))
    else .error .invalidArgument

/-- `tfd.Poisson(rate).log_prob(x)` for a positive rate: `x log(rate) - rate - log Γ(x + 1)` (TensorFlow Probability;
trusted). -/
noncomputable def poissonLogProb (rate x : ℝ) : ℝ := x * Real.log rate - rate - Real.log (Real.Gamma (x + 1))

/-- zfit/core/constraint.py 201-215, 403-437 `PoissonConstraint.value`: the rates are the observations, the log-probability is
that of the parameters; summed. -/
noncomputable def poissonValue {n : ℕ} (obs x : Fin n → ℝ) : ℝ := ∑ i, -(poissonLogProb (obs i) (x i))

/-- `tfd.LogNormal(loc, scale).log_prob(x)` for positive `x` and `scale`: the logarithm of `x` is normal
(TensorFlow Probability; trusted). -/
noncomputable def lognormalLogProb (loc scale x : ℝ) : ℝ :=
  -((Real.log x - loc) ^ 2 / (2 * scale ^ 2)) - Real.log scale - 1 / 2 * Real.log (2 * Real.pi) - Real.log x

/-- zfit/core/constraint.py 201-215, 460-512 `LogNormalConstraint.value`. -/
noncomputable def lognormalValue {n : ℕ} (obs unc x : Fin n → ℝ) : ℝ := ∑ i, -(lognormalLogProb (obs i) (unc i) (x i))

/-- zfit/core/constraint.py 158-166 `sample`: column `i` of the sample belongs to parameter `i`, in a dictionary. -/
def sampleDict {P V : Type} [DecidableEq P] (params : List P) (columns : List V) : List (P × V) :=
  (params.zip columns).foldl (fun d pv => dictSet d pv.1 pv.2) []

end Zfit.Constr
