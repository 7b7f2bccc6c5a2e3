import Verif.Phys.Model
import Mathlib.Analysis.SpecialFunctions.Gamma.Basic
import Mathlib.Analysis.SpecialFunctions.Arsinh

/-! Model of zfit/models/dist_tfp.py: PDFs that wrap a distribution of TensorFlow Probability.

The distributions themselves are the library's; what is written here about them are the formulas of the library's
documentation (trusted), with real numbers. The cumulative distribution functions and quantiles are parameters of the
theorems. -/

namespace Zfit.Dist

/-- The exceptions used here. -/
inductive Err
  /-- `tf.debugging.assert_all_finite` failed. -/
  | notFinite
  | valueError
  /-- `AnalyticSamplingNotImplemented` -/
  | noAnalyticSampling
  deriving DecidableEq

/-- A limit of a space. -/
inductive Lim
  | negInf
  | fin (r : ℝ)
  | posInf

/-- A distribution object of the library, with the current values of its parameters. `quantile` is `none` if the library
does not implement it. -/
structure LibDist where
  prob : ℝ → ℝ
  cdf : ℝ → ℝ
  quantile : Option (ℝ → ℝ)

/-- zfit/models/dist_tfp.py 104-106 `WrapDistribution._unnormalized_pdf`, one event. -/
def unnormalizedPdf (d : LibDist) (x : ℝ) : ℝ := d.prob x

/-- zfit/models/dist_tfp.py 109-116 `WrapDistribution._analytic_integrate` for one rectangular interval. -/
def analyticIntegrate (d : LibDist) (lower upper : Lim) : Except Err ℝ :=
  match lower, upper with
  | .fin a, .fin b => .ok (d.cdf b - d.cdf a)
  | _, _ => .error .notFinite

/-- `pdf(x, norm)` of a wrapped distribution: the unnormalised value divided by the integral over the norm range
(zfit/core/basepdf.py, area `Pdf`; one interval). -/
noncomputable def pdf (d : LibDist) (x : ℝ) (lower upper : Lim) : Except Err ℝ :=
  match analyticIntegrate d lower upper with
  | .ok i => .ok (unnormalizedPdf d x / i)
  | .error e => .error e

/-- zfit/models/dist_tfp.py 38-61 `tfd_analytic_sample` for one interval with finite limits. `us` are the numbers of the random
generator, in [0, 1); `z.random.uniform` with `minval` and `maxval` scales and shifts them. -/
def analyticSample (d : LibDist) (lower upper : ℝ) (us : List ℝ) : Except Err (List ℝ) :=
  let lowerProb := d.cdf lower
  let upperProb := d.cdf upper
  let probs := us.map fun u => lowerProb + u * (upperProb - lowerProb)
  match d.quantile with
  | none => .error .noAnalyticSampling
  | some q => .ok (probs.map q)

/-! ### The densities of the library (trusted) -/

/-- `tfd.Normal`. -/
noncomputable def libNormal (loc scale x : ℝ) : ℝ := Real.exp (-(1 / 2) * ((x - loc) / scale) ^ 2) / (Real.sqrt (2 * Real.pi) * scale)

open Classical in
/-- `tfd.Uniform`. -/
noncomputable def libUniform (low high x : ℝ) : ℝ := if x < low ∨ high < x then 0 else 1 / (high - low)

open Classical in
/-- `tfd.TruncatedNormal`: the normal density divided by the probability `p` between the bounds, zero outside. -/
noncomputable def libTruncatedNormal (loc scale low high p x : ℝ) : ℝ := if x < low ∨ high < x then 0 else libNormal loc scale x / p

/-- `tfd.Cauchy`. -/
noncomputable def libCauchy (loc scale x : ℝ) : ℝ := 1 / (Real.pi * scale * (1 + ((x - loc) / scale) ^ 2))

/-- `tfd.LogNormal`, for positive `x`: the normal density of the logarithm divided by `x`. -/
noncomputable def libLogNormal (loc scale x : ℝ) : ℝ := libNormal loc scale (Real.log x) / x

/-- `tfd.Gamma`, for positive `x`. -/
noncomputable def libGamma (concentration rate x : ℝ) : ℝ :=
  x ^ (concentration - 1) * Real.exp (-x * rate) * rate ^ concentration / Real.Gamma concentration

/-- `tfd.Chi2`, for positive `x`: the gamma distribution with half the degrees of freedom and rate 1/2. -/
noncomputable def libChi2 (df x : ℝ) : ℝ := libGamma (df / 2) (1 / 2) x

/-- `tfd.StudentT`. -/
noncomputable def libStudentT (df loc scale x : ℝ) : ℝ :=
  (1 + ((x - loc) / scale) ^ 2 / df) ^ (-((df + 1) / 2)) * Real.Gamma ((df + 1) / 2) /
    (Real.sqrt (df * Real.pi) * Real.Gamma (df / 2) * |scale|)

open Classical in
/-- `tfd.TwoPieceNormal`. -/
noncomputable def libTwoPieceNormal (loc scale skewness x : ℝ) : ℝ :=
  let k := 2 * skewness / ((1 + skewness ^ 2) * scale)
  let y := if x < loc then (x - loc) / scale * skewness else (x - loc) / scale / skewness
  k * libNormal 0 1 y

/-- `tfd.JohnsonSU`. -/
noncomputable def libJohnsonSU (skewness tailweight loc scale x : ℝ) : ℝ :=
  tailweight / (scale * Real.sqrt (2 * Real.pi) * Real.sqrt (1 + ((x - loc) / scale) ^ 2)) *
    Real.exp (-(1 / 2) * (skewness + tailweight * Real.arsinh ((x - loc) / scale)) ^ 2)

/-- `tfd.GeneralizedNormal`. -/
noncomputable def libGeneralizedNormal (loc scale power x : ℝ) : ℝ :=
  power / (2 * scale * Real.Gamma (1 / power)) * Real.exp (-(|x - loc| / scale) ^ power)

/-- `tfd.Poisson`, probability of the integer `k`. -/
noncomputable def libPoisson (rate : ℝ) (k : ℕ) : ℝ := rate ^ k * Real.exp (-rate) / k.factorial

open Classical in
/-- `tfd.Poisson.cdf`: the probability of the integers not above `x`, zero for negative `x`. -/
noncomputable def libPoissonCdf (rate x : ℝ) : ℝ := if x < 0 then 0 else ((List.range (⌊x⌋₊ + 1)).map (libPoisson rate)).sum

/-! ### The parameters handed to the library -/

/-- zfit/models/dist_tfp.py 248-264 `Gauss`. -/
noncomputable def gaussProb (mu sigma : ℝ) : ℝ → ℝ := libNormal mu sigma

/-- zfit/models/dist_tfp.py 332-348 `Uniform`. -/
noncomputable def uniformProb (low high : ℝ) : ℝ → ℝ := libUniform low high

/-- zfit/models/dist_tfp.py 390-411 `TruncatedGauss`. `p` is the library's probability between the bounds. -/
noncomputable def truncatedGaussProb (mu sigma low high p : ℝ) : ℝ → ℝ := libTruncatedNormal mu sigma low high p

/-- zfit/models/dist_tfp.py 457-473 `Cauchy`. -/
noncomputable def cauchyProb (m gamma : ℝ) : ℝ → ℝ := libCauchy m gamma

/-- zfit/models/dist_tfp.py 596-613 `LogNormal`. -/
noncomputable def logNormalProb (mu sigma : ℝ) : ℝ → ℝ := libLogNormal mu sigma

/-- zfit/models/dist_tfp.py 671-687 `ChiSquared`. -/
noncomputable def chiSquaredProb (ndof : ℝ) : ℝ → ℝ := libChi2 ndof

/-- zfit/models/dist_tfp.py 765-781 `StudentT`. -/
noncomputable def studentTProb (ndof mu sigma : ℝ) : ℝ → ℝ := libStudentT ndof mu sigma

/-- zfit/models/dist_tfp.py 879-889 `QGauss.__init__`: the check of `q`, in eager mode. -/
noncomputable def qGaussCheck (q : ℝ) : Except Err Unit :=
  open Classical in
  if q < 1 ∨ q > 3 then .error .valueError else if q = 1 then .error .valueError else .ok ()

/-- zfit/models/dist_tfp.py 899-917 `QGauss`. -/
noncomputable def qGaussProb (q mu sigma : ℝ) : ℝ → ℝ :=
  let df := (3 - q) / (q - 1)
  let scale := sigma / Real.sqrt (0.5 * (3 - q))
  libStudentT df mu scale

/-- zfit/models/dist_tfp.py 1011-1027 `BifurGauss`. -/
noncomputable def bifurGaussProb (mu sigmal sigmar : ℝ) : ℝ → ℝ :=
  let scale := sigmal * Real.sqrt (sigmar / sigmal)
  let skewness := Real.sqrt (sigmar / sigmal)
  libTwoPieceNormal mu scale skewness

/-- zfit/models/dist_tfp.py 1109-1132 `Gamma`: the library's distribution shifted by `mu`. -/
noncomputable def gammaProb (gamma beta mu : ℝ) : ℝ → ℝ := fun x => libGamma gamma (1 / beta) (x - mu)

/-- zfit/models/dist_tfp.py 1223-1239 `JohnsonSU`. -/
noncomputable def johnsonSUProb (mu lambd gamma delta : ℝ) : ℝ → ℝ := libJohnsonSU gamma delta mu lambd

/-- zfit/models/dist_tfp.py 1320-1336 `GeneralizedGauss`. -/
noncomputable def generalizedGaussProb (mu sigma beta : ℝ) : ℝ → ℝ := libGeneralizedNormal mu sigma beta

/-- zfit/models/dist_tfp.py 524-543 `Poisson`: the normalised probability of the integer `k`, with the norm range
`[lower, upper]`. -/
noncomputable def poissonPdf (lam : ℝ) (k : ℕ) (lower upper : ℝ) : ℝ := libPoisson lam k / (libPoissonCdf lam upper - libPoissonCdf lam lower)

end Zfit.Dist
