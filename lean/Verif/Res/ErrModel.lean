import Verif.Common.Py
import Mathlib.Analysis.Real.Sqrt

/-!
# Model of the settings of `compute_errors`

/repo/zfit/minimizers/errors.py: `compute_errors` (92-276): how the requested settings become the ones used, and what is
passed on when a new minimum is found.  The profiling itself is a parameter.  /repo/zfit/minimizers/fitresult.py: `errors`
(1355-1362), `_hesse` (1273).

`cdf` and `ppf` are those of the chi-squared distribution with one degree of freedom (`scipy.stats.chi2(1)`).
-/

namespace Zfit.Res

open Zfit

/-- The distribution function and its inverse. -/
structure Chi2 where
  cdf : ℝ → ℝ
  ppf : ℝ → ℝ

/-- The arguments of `compute_errors`; `M` are root finding methods, `V` covariance methods. -/
structure Request (M V : Type) where
  cl : Option ℝ
  sigma : Option ℝ
  rtol : Option ℝ
  method : Option M
  covMethod : Option V

/-- What the profiling is done with: `sigma` in `downward_shift` (errors.py:211), `rtol` (214), `method` (243), and the
method of the covariance (115). -/
structure Settings (M V : Type) where
  sigma : ℝ
  rtol : ℝ
  method : M
  covMethod : Option V

/-- errors.py:92-112; `hybr` is the default method, `errordef` that of the loss. -/
noncomputable def settle {M V : Type} (chi : Chi2) (hybr : M) (errordef : ℝ) (q : Request M V) :
    Except Err (Settings M V) :=
  match q.cl, q.sigma with
  | none, none => .ok ⟨1, q.rtol.getD 0.003 * errordef, q.method.getD hybr, q.covMethod⟩
  | none, some s => .ok ⟨s, q.rtol.getD 0.003 * errordef, q.method.getD hybr, q.covMethod⟩
  | some c, none => .ok ⟨√(chi.ppf c), q.rtol.getD 0.003 * errordef, q.method.getD hybr, q.covMethod⟩
  | some _, some _ => .error .valueError

/-- The request of the recursive call (errors.py:273): `cl=cl, rtol=rtol, method=method`, where `rtol` and `method` have
been replaced by the ones in use. -/
def again {M V : Type} (q : Request M V) (s : Settings M V) : Request M V := ⟨q.cl, none, some s.rtol, some s.method, none⟩

/-- What profiling a result with some settings does: errors `E`, or a new minimum with the result `R` the minimiser finds
from there, or a failure (`RuntimeError`, errors.py:267-272). -/
inductive Profiled (R E : Type)
  | errors (e : E)
  | newMinimum (r : R)
  | failed

/-- `compute_errors` (errors.py:92-276): the errors, the result they belong to, and the settings used.  `none`: the fuel
does not suffice (new minima without end). -/
noncomputable def computeErrors {M V R E : Type} (chi : Chi2) (hybr : M) (errordef : ℝ)
    (profile : R → Settings M V → Profiled R E) : ℕ → R → Request M V → Option (Except Err (E × R × Settings M V))
  | 0, _, _ => none
  | fuel + 1, r, q =>
    match settle chi hybr errordef q with
    | .error e => some (.error e)
    | .ok s =>
      match profile r s with
      | .errors e => some (.ok (e, r, s))
      | .failed => some (.error .runtimeError)
      | .newMinimum r' => computeErrors chi hybr errordef profile fuel r' (again q s)

/-- The confidence level in `FitResult.errors` (fitresult.py:1355-1362) that is given to the method. -/
noncomputable def errorsLevel (chi : Chi2) (cl sigma : Option ℝ) : Except Err ℝ :=
  match sigma, cl with
  | some _, some _ => .error .valueError
  | some s, none => .ok (chi.cdf s)
  | none, some c => .ok c
  | none, none => .ok 0.68268949

/-- `pseudo_sigma` in `FitResult._hesse` (fitresult.py:1273): the number of standard deviations of `hesse(cl=cl)`. -/
noncomputable def hesseSigma (chi : Chi2) (cl : ℝ) : ℝ := √(chi.ppf cl)

end Zfit.Res
