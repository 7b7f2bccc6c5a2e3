import Verif.Common.Py
import Mathlib.LinearAlgebra.Matrix.NonsingularInverse
import Mathlib.Analysis.SpecialFunctions.Sqrt
import Mathlib.Analysis.SpecialFunctions.Log.Basic

/-!
# Model of the uncertainties of a fit result

/repo/zfit/minimizers/fitresult.py: `_covariance_np` (235-245), `_covariance_minuit` (209-232), `_covariance_approx`
(248-266), `_input_check_reset_params` (1137-1151), `_hesse` (1272-1285), `covariance` (1449-1478);
/repo/zfit/minimizers/errors.py: `compute_errors` (51-276), `covariance_with_weights` (333-441).

Real numbers; the parameters are the elements of a finite type, a point gives all of them a value.  The conversion
between matrices and dictionaries is in area `Res` (C53), so are the caches (C54) and the conversion of confidence levels
to numbers of standard deviations (C70).
-/

namespace Zfit.Unc

open Zfit Matrix

variable {n : Type} [Fintype n] [DecidableEq n]

/-! ### Covariances -/

/-- What a result asks of its loss: the second derivatives at the current values of the parameters, and the change of the
loss that is one standard deviation. -/
structure Objective (n : Type) where
  hessian : (n → ℝ) → Matrix n n ℝ
  errordef : ℝ

/-- A result: the fitted values, the inverse of the second derivatives that the minimiser found (if it did), and the point
at which iminuit does its last evaluation (any). -/
structure Result (n : Type) where
  obj : Objective n
  values : n → ℝ
  approxInv : Option (Matrix n n ℝ)
  minuitLast : n → ℝ

/-- The named methods. -/
inductive Method
  | np
  | minuit
  | approx
  deriving DecidableEq

/-- The methods: the values of the parameters afterwards, and the covariance.  `np` (fitresult.py:235-245) takes the
second derivatives at the current values.  `minuit` (209-232) is the instance of the fit, at the fitted values; iminuit
(external) documents the covariance as the inverse of the second derivatives times twice `errordef`.  Evaluating the
loss sets the parameters.  `approx`: 248-266. -/
noncomputable def Result.method (r : Result n) (m : Method) (cur : n → ℝ) : (n → ℝ) × Option (Matrix n n ℝ) :=
  match m with
  | .np => (cur, some (r.obj.hessian cur)⁻¹)
  | .minuit => (r.minuitLast, some ((2 * r.obj.errordef) • (r.obj.hessian r.values)⁻¹))
  | .approx => (cur, r.approxInv)

/-- `_input_check_reset_params` (fitresult.py:1137-1151), if nothing is raised: only the given parameters are reset;
`none` are all. -/
def resetParams (params : Option (List n)) (old after : n → ℝ) : n → ℝ :=
  match params with
  | none => old
  | some l => fun i => if i ∈ l then old i else after i

/-- `covariance` without weights, not cached (fitresult.py:1453-1463): the values of the parameters afterwards and the
covariance of all parameters. -/
noncomputable def Result.covariance (r : Result n) (m : Method) (params : Option (List n)) (cur : n → ℝ) :
    (n → ℝ) × Option (Matrix n n ℝ) :=
  let c := r.method m cur
  (resetParams params cur c.1, c.2)

/-- `_hesse` (fitresult.py:1272-1285) for one parameter. -/
noncomputable def hesseError (cov : Matrix n n ℝ) (i : n) (sigma : ℝ) : ℝ := Real.sqrt (cov i i) * sigma

/-! ### Weights -/

/-- An unbinned dataset with its model, at the fitted values: for every event the gradient of `log_pdf` with respect to
the parameters, and its weight; if the loss is extended the yield and its gradient. -/
structure Part (n : Type) where
  logGrads : List (n → ℝ)
  weights : Option (List ℝ)
  samplesize : ℝ
  yld : Option (ℝ × (n → ℝ))

/-- The gradient of `log_poisson_loss(samplesize, log(yield), full)` (errors.py:403-408), see `yieldGrad_correct`. -/
noncomputable def yieldGrad (samplesize y : ℝ) (g : n → ℝ) : n → ℝ := fun i => (1 - samplesize / y) * g i

/-- The columns of the jacobian of `func` that one dataset gives (errors.py:396-408); `corrfactor` is 1. -/
noncomputable def Part.columns (p : Part n) : List (n → ℝ) :=
  (match p.weights with
    | none => p.logGrads
    | some w => List.zipWith (fun g w => fun i => w * g i) p.logGrads w)
  ++ (match p.yld with
    | none => []
    | some y => [yieldGrad p.samplesize y.1 y.2])

/-- `jacobian @ jacobian.T` (errors.py:436). -/
def outer (cols : List (n → ℝ)) : Matrix n n ℝ := Matrix.of fun i j => (cols.map (fun c => c i * c j)).sum

/-- `weightcorr`. -/
inductive Corr
  | off
  | asymptotic
  | effsize
  deriving DecidableEq

/-- `covariance_with_weights` (errors.py:333-441): `hinv` is what the method returns, `none` if it is empty; `constraints`
are the gradients of the values of the constraints.  In the list of weights, `data.nevents` for a dataset without weights
is an attribute of the list of datasets.  The fit ranges of the loss are not used. -/
noncomputable def covarianceWithWeights (hinv : Option (Matrix n n ℝ)) (corr : Corr) (parts : List (Part n))
    (constraints : List (n → ℝ)) : Except Err (Option (Matrix n n ℝ)) :=
  match hinv with
  | none => .ok none
  | some hinv =>
    match corr with
    | .asymptotic =>
      let cols := parts.flatMap Part.columns ++ constraints
      .ok (some (hinv * (outer cols * hinv)))
    | .effsize => if parts.any (fun p => p.weights.isNone) then .error .attributeError else .ok (some hinv)
    | .off => .error .valueError

/-- `_covariance` (fitresult.py:1465-1478). -/
noncomputable def weightedCovariance (hinv : Option (Matrix n n ℝ)) (corr : Corr) (parts : List (Part n))
    (constraints : List (n → ℝ)) : Except Err (Option (Matrix n n ℝ)) :=
  if corr ≠ .off ∧ parts.any (fun p => p.weights.isSome) then covarianceWithWeights hinv corr parts constraints
  else .ok hinv

/-! ### Errors from the profile of the loss -/

/-- The side of the error. -/
inductive Side
  | lower
  | upper
  deriving DecidableEq

/-- `direction`. -/
def Side.dir : Side → ℝ
  | .lower => -1
  | .upper => 1

/-- The search for one parameter `poi` (errors.py:92-133): the loss (`none` if the evaluation fails because of NaN) and its
gradient, at the minimum `fmin`; `rtol` and `minTol` are those after the multiplication with `errordef` (112, 125). -/
structure Search (n : Type) where
  loss : (n → ℝ) → Option ℝ
  grad : (n → ℝ) → n → ℝ
  fmin : ℝ
  errordef : ℝ
  sigma : ℝ
  rtol : ℝ
  minTol : ℝ
  poi : n
  /-- the fitted values -/
  values : n → ℝ

/-- The trials to find a start inside the limits (errors.py:142-155). -/
noncomputable def trial (lower upper : Option ℝ) (v : ℝ) : Nat → ℝ → Option ℝ
  | 0, _ => none
  | k + 1, step =>
    open Classical in
    if (∃ l, lower = some l ∧ v + step < l) ∨ (∃ u, upper = some u ∧ u < v + step) then trial lower upper v k (step * (4 / 5))
    else some (v + step)

/-- The start of one parameter (errors.py:138-157); without one a `RuntimeError` is raised. -/
noncomputable def Search.start (s : Search n) (cov : Matrix n n ℝ) (lower upper : n → Option ℝ) (side : Side) (j : n) :
    Option ℝ :=
  let factor := cov s.poi j * Real.sqrt (2 * s.errordef / cov s.poi s.poi)
  trial (lower j) (upper j) (s.values j) 50 (side.dir * factor * s.sigma)

/-- The variable `ntol`, which all evaluations for one parameter share. -/
abbrev NTol := Nat

/-- What an evaluation ends with: an exception, or the values for the root finder. -/
inductive Out (n : Type)
  | rootFound (v : ℝ)
  | newMinimum (x : n → ℝ)
  | go (shifted : ℝ) (grad : n → ℝ)

/-- `swap_sign` (errors.py:229-232) at the current value of the parameter, which is that of the point (if it is within
the limits of the parameter). -/
def Side.beyond (side : Side) (x v : ℝ) : Prop :=
  match side with
  | .lower => v < x
  | .upper => x < v

/-- The loss at a point; if it cannot be evaluated a large number (errors.py:191-197). -/
noncomputable def Search.zeroed (s : Search n) (x : n → ℝ) : ℝ := (s.loss x).getD 9999999999 - s.fmin

/-- `func` (errors.py:184-222). -/
noncomputable def Search.evaluate (s : Search n) (side : Side) (ntol : NTol) (x : n → ℝ) : NTol × Out n :=
  open Classical in
  let swap := side.beyond (x s.poi) (s.values s.poi)
  let zeroed := if swap then -s.zeroed x else s.zeroed x
  let grad := if swap then fun i => -s.grad x i else s.grad x
  if ¬ swap ∧ zeroed < -s.minTol then (ntol, .newMinimum x)
  else
    let shifted := zeroed - s.errordef * s.sigma ^ 2
    if |shifted| < s.rtol then
      if 3 < ntol then (ntol, .rootFound (x s.poi)) else (ntol + 1, .go shifted grad)
    else (0, .go shifted grad)

/-- How the search for one side ends. -/
inductive End (n : Type)
  | root (v : ℝ)
  | newMinimum (x : n → ℝ)

/-- `optimize.root` (errors.py:234-253) evaluates the points `xs` (chosen by scipy, any) and, if no exception ends it,
returns `final`. -/
noncomputable def Search.run (s : Search n) (side : Side) : NTol → List (n → ℝ) → (n → ℝ) → NTol × End n
  | ntol, [], final => (ntol, .root (final s.poi))
  | ntol, x :: xs, final =>
    match s.evaluate side ntol x with
    | (ntol, .rootFound v) => (ntol, .root v)
    | (ntol, .newMinimum x) => (ntol, .newMinimum x)
    | (ntol, .go _ _) => s.run side ntol xs final

/-- The errors of one parameter (errors.py:178-179, 228-254): lower, upper, or the new minimum. -/
noncomputable def Search.errors (s : Search n) (lowerXs upperXs : List (n → ℝ)) (lowerFinal upperFinal : n → ℝ) :
    Except (n → ℝ) (ℝ × ℝ) :=
  match s.run .lower 999 lowerXs lowerFinal with
  | (_, .newMinimum x) => .error x
  | (ntol, .root l) =>
    match s.run .upper ntol upperXs upperFinal with
    | (_, .newMinimum x) => .error x
    | (_, .root u) => .ok (l - s.values s.poi, u - s.values s.poi)

end Zfit.Unc
