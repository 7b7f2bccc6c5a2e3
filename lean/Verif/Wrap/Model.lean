import Mathlib.Algebra.Order.Field.Rat
import Mathlib.Algebra.Order.Group.Abs
import Mathlib.Tactic.NormNum
import Verif.Common.Py

/-!
# The outer loops of the wrapped minimisers (zfit/minimizers)

Every wrapper calls its library up to `_internal_maxiter = 20` times and looks at the convergence criterion after each call.  What the
library does is a parameter: the outcome of the `i`-th call from given starting values, the number of evaluations used so far, the value
of the criterion at the point that was returned, the random displacements.  Points are of any type `X`, numbers of any ordered field `K`;
a NaN criterion is `none`.  Options handed to the libraries, step sizes and internal tolerances only influence what the library does and
are part of that parameter; `verbosity` and the printing are left out.
-/

namespace Zfit.Wrap

/-- The outcome of one call of the library. -/
inductive Run (X K : Type)
  | done (x : X) (fmin : K)
  /-- `MaximumIterationReached`, raised by the loss evaluator. -/
  | budget
  /-- `RuntimeError`, raised by the library. -/
  | runtime
  | failed (e : Err)

/-- The message of the result: none of its own, or the reason of the wrapper. -/
inductive Message
  | none
  | stuck
  | atLimits
  | notReached
  | maxiter
deriving DecidableEq

/-- What the result reports: `params`, `fminopt`, `edm` (here the value of the criterion, whichever it is), `valid` (before the limits are looked at, see `Verif.Res`), `message`. -/
structure Report (X K : Type) where
  values : X
  fmin : Option K
  edm : Option K
  valid : Bool
  message : Message
deriving DecidableEq

/-- What stays the same during a minimisation: starting values, library, criterion (after run `i`, at a point with a value), whether
`evaluator.niter > evaluator.maxiter` after run `i`, and the tolerance of the criterion. -/
structure Setup (X K : Type) where
  start : X
  run : ℕ → X → Run X K
  crit : ℕ → X → Option K
  over : ℕ → Bool
  goal : K

section
variable {X K : Type} [Field K] [LinearOrder K]

/-- `ConvergenceCriterion.__init__`: `self.tol = tol * loss.errordef` (termination.py:29). -/
def critGoal (tol errordef : K) : K := tol * errordef

/-- `value < self.tol` (termination.py:46), false for NaN. -/
def below (v : Option K) (goal : K) : Bool :=
  match v with
  | some a => decide (a < goal)
  | none => false

/-- `math.isclose(old_edm, edm, rel_tol=1e-4, abs_tol=1e-12)` (minimizers_scipy.py:347), false for NaN. -/
def isClose (a b : Option K) : Bool :=
  match a, b with
  | some a, some b => decide (|a - b| ≤ max (1 / 10000 * max |a| |b|) (1 / 1000000000000))
  | _, _ => false

/-! ## Scipy (minimizers_scipy.py:208-382) -/

/-- The further parameters of the Scipy loop: whether a parameter is at a limit at a point, the `k`-th random displacement. -/
structure Scipy (X K : Type) extends Setup X K where
  atLimit : X → Bool
  displace : ℕ → X → X

/-- The variables of the loop: `init_values`, `nrandom`, `old_edm`, `n_paramatlim`, and the last `optimize_results` (whose `x` is the array
that is displaced in place), `fun` and `edm`. -/
structure ScipySt (X K : Type) where
  init : X
  nrandom : ℕ
  old : Option K
  nlim : ℕ
  last : Option (K × Option K)

/-- One turn of the loop (minimizers_scipy.py:272-363) and the final `FitResult.from_scipy` (fitresult.py:845-898) after a `break`.
`optim_result` is `None` at the start of each turn, so that `MaximumIterationReached` is always raised again. -/
def scipyTurn (s : Scipy X K) (i : ℕ) (st : ScipySt X K) : Except Err (ScipySt X K ⊕ Report X K) :=
  match s.run i st.init with
  | .budget => .error .maximumIterationReached
  | .runtime => .error .runtimeError
  | .failed e => .error e
  | .done x fmin =>
    let nlim := if s.atLimit x then st.nlim + 1 else st.nlim
    let edm := s.crit i x
    let conv := below edm s.goal
    let close := isClose st.old edm
    if close && decide (5 ≤ st.nrandom) then .ok (.inr ⟨x, some fmin, edm, false, .stuck⟩)
    else
      let x' := if close then s.displace st.nrandom x else x
      let nrandom := if close then st.nrandom + 1 else st.nrandom
      if 4 < nlim then .ok (.inr ⟨x', some fmin, edm, conv && !s.over i, .atLimits⟩)
      else if conv || s.over i then .ok (.inr ⟨x', some fmin, edm, conv && !s.over i, .none⟩)
      else .ok (.inl ⟨x', nrandom, edm, nlim, some (fmin, edm)⟩)

/-- The loop with its `else` branch (minimizers_scipy.py:365-382); `edm` is unbound if there is no turn. -/
def scipyLoop (s : Scipy X K) : ℕ → ℕ → ScipySt X K → Except Err (Report X K)
  | 0, _, st =>
    match st.last with
    | none => .error .unboundLocalError
    | some (fmin, edm) => .ok ⟨st.init, some fmin, edm, false, .notReached⟩
  | fuel + 1, i, st =>
    match scipyTurn s i st with
    | .error e => .error e
    | .ok (.inr r) => .ok r
    | .ok (.inl st) => scipyLoop s fuel (i + 1) st

/-- `ScipyBaseMinimizer._minimize` (minimizers_scipy.py:208-382). -/
def scipy (s : Scipy X K) : Except Err (Report X K) := scipyLoop s 20 0 ⟨s.start, 0, some (-1), 0, none⟩

/-! ## NLopt (minimizer_nlopt.py:180-361) -/

/-- The further parameters of the NLopt loop: `last_optimum_value()` and `last_optimize_result()` after run `i`, and the `k`-th random
restart, from the previous one. -/
structure Nlopt (X K : Type) extends Setup X K where
  lastValue : ℕ → K
  status : ℕ → ℤ
  restart : ℕ → X → X

/-- The keys of `messages` (fitresult.py:985-997). -/
def knownStatus (n : ℤ) : Bool := decide (n ∈ ([1, 2, 3, 4, 5, 6, -1, -2, -3, -4, -5] : List ℤ))

/-- The variables of the loop: `xvalues`, `initial_xvalues`, `nrandom`, `criterion_value`, `valid_message`, the number of the last run. -/
structure NloptSt (X K : Type) where
  x : X
  initial : X
  nrandom : ℕ
  last : Option (ℕ × Option K)
  message : Message

/-- `FitResult.from_nlopt` (fitresult.py:972-1043) after run `i`. -/
def fromNlopt (s : Nlopt X K) (i : ℕ) (x : X) (edm : Option K) (valid : Bool) (m : Message) : Except Err (Report X K) :=
  if knownStatus (s.status i) then
    .ok ⟨x, some (s.lastValue i), edm, valid && (decide (1 ≤ s.status i) && decide (s.status i ≤ 4)) && !s.over i, m⟩
  else .error .keyError

/-- The call of the library with its exceptions (minimizer_nlopt.py:281-309): the new `xvalues`, `initial_xvalues`, `nrandom`,
`maxiter_reached` and message. -/
def nloptCall (s : Nlopt X K) (i : ℕ) (st : NloptSt X K) : Except Err (X × X × ℕ × Bool × Message) :=
  match s.run i st.x with
  | .done x _ => .ok (x, st.initial, st.nrandom, s.over i, st.message)
  | .budget => .ok (st.x, st.initial, st.nrandom, true, .maxiter)
  | .runtime =>
    if st.nrandom < 5 then .ok (st.x, s.restart st.nrandom st.initial, st.nrandom + 1, false, st.message)
    else .ok (st.x, st.initial, st.nrandom, false, st.message)
  | .failed e => .error e

/-- One turn of the loop (minimizer_nlopt.py:250-341). -/
def nloptTurn (s : Nlopt X K) (i : ℕ) (st : NloptSt X K) : Except Err (NloptSt X K ⊕ Report X K) := do
  let (x, initial, nrandom, reached, m) ← nloptCall s i st
  let _ ← fromNlopt s i x none false m
  let edm := s.crit i x
  let conv := below edm s.goal
  if conv || reached then return .inr (← fromNlopt s i x edm conv m) else return .inl ⟨x, initial, nrandom, some (i, edm), m⟩

/-- The loop with its `else` branch (minimizer_nlopt.py:343-361). -/
def nloptLoop (s : Nlopt X K) : ℕ → ℕ → NloptSt X K → Except Err (Report X K)
  | 0, _, st =>
    match st.last with
    | none => .error .unboundLocalError
    | some (i, edm) => fromNlopt s i st.x edm false .notReached
  | fuel + 1, i, st =>
    match nloptTurn s i st with
    | .error e => .error e
    | .ok (.inr r) => .ok r
    | .ok (.inl st) => nloptLoop s fuel (i + 1) st

/-- `NLoptBaseMinimizerV1._minimize` (minimizer_nlopt.py:180-361). -/
def nlopt (s : Nlopt X K) : Except Err (Report X K) := nloptLoop s 20 0 ⟨s.start, s.start, 0, none, .none⟩

/-! ## Ipyopt (ipopt.py:233-409) -/

/-- The variables of the loop: `xvalues`, `fmin`, `criterion_value`, `valid`, `valid_message`. -/
structure IpoptSt (X K : Type) where
  x : X
  fmin : Option K
  edm : Option K
  valid : Bool
  message : Message

/-- `FitResult.from_ipopt` (fitresult.py:634-653). -/
def fromIpopt (s : Setup X K) (i : ℕ) (st : IpoptSt X K) (conv : Bool) : Report X K :=
  ⟨st.x, st.fmin, st.edm, st.valid && conv && !s.over i, st.message⟩

/-- The call of the library (ipopt.py:329-341); exceptions other than `MaximumIterationReached` are not caught. -/
def ipoptCall (s : Setup X K) (i : ℕ) (st : IpoptSt X K) : Except Err (IpoptSt X K × Bool) :=
  match s.run i st.x with
  | .done x fmin => .ok ({ st with x := x, fmin := some fmin }, s.over i)
  | .budget => .ok ({ st with valid := false, message := .maxiter }, true)
  | .runtime => .error .runtimeError
  | .failed e => .error e

/-- One turn of the loop (ipopt.py:325-384). -/
def ipoptTurn (s : Setup X K) (i : ℕ) (st : IpoptSt X K) : Except Err (IpoptSt X K ⊕ Report X K) := do
  let (st, reached) ← ipoptCall s i st
  let st := { st with edm := s.crit i st.x }
  let conv := below st.edm s.goal
  if conv || reached then return .inr (fromIpopt s i st conv) else return .inl st

/-- The loop with its `else` branch (ipopt.py:386-409). -/
def ipoptLoop (s : Setup X K) : ℕ → ℕ → IpoptSt X K → Except Err (Report X K)
  | 0, i, st => .ok (fromIpopt s (i - 1) { st with valid := false, message := .notReached } false)
  | fuel + 1, i, st =>
    match ipoptTurn s i st with
    | .error e => .error e
    | .ok (.inr r) => .ok r
    | .ok (.inl st) => ipoptLoop s fuel (i + 1) st

/-- `Ipyopt._minimize` (ipopt.py:233-409). -/
def ipopt (s : Setup X K) : Except Err (Report X K) := ipoptLoop s 20 0 ⟨s.start, none, none, true, .none⟩

/-! ## Minuit (minimizer_minuit.py:170-240) -/

/-- What `minimizer.fmin` and `minimizer.values` are after a call of `migrad`. -/
structure Migrad (X K : Type) where
  x : X
  fval : K
  edm : K
  above : Bool
  isValid : Bool
  calls : ℕ
deriving DecidableEq

/-- The parameters of the loop: the `i`-th call of `migrad` with `ncall` (`none`: `MaximumIterationReached`), whether the criterion is
exactly `EDM`, the criterion otherwise, its tolerance, and whether the evaluator's own budget of 1e20 is exceeded after run `i`. -/
structure Minuit (X K : Type) where
  migrad : ℕ → Option (Migrad X K)
  isEdm : Bool
  crit : ℕ → X → Option K
  goal : K
  over : ℕ → Bool

/-- The result of Minuit: the state of the library it was built from, `edm`, `valid` (fitresult.py:740-782), the message, and the number
of evaluations of all runs together. -/
structure MinuitReport (X K : Type) where
  from_ : Migrad X K
  edm : Option K
  valid : Bool
  message : Message
  used : ℕ
deriving DecidableEq

/-- The loop (minimizer_minuit.py:182-240). `last` is the state of the library after the runs so far, `used` the evaluations they made;
before the first run there is no `fmin` to look at. -/
def minuitLoop (s : Minuit X K) : ℕ → ℕ → Option (Migrad X K) → ℕ → Except Err (MinuitReport X K)
  | 0, _, none, _ => .error .attributeError
  | 0, i, some m, used => .ok ⟨m, if s.isEdm then some m.edm else s.crit (i - 1) m.x, false, .none, used⟩
  | fuel + 1, i, last, used =>
    let now := (s.migrad i).or last
    let used := match s.migrad i with
      | some m => used + m.calls
      | none => used
    let reached := if (s.migrad i).isNone then true else s.over i
    match now with
    | none => .error .attributeError
    | some m =>
      let edm := if s.isEdm then some m.edm else s.crit i m.x
      let conv := if s.isEdm then !m.above else below edm s.goal
      if conv || reached then
        .ok ⟨m, edm, m.isValid && !reached, if (s.migrad i).isNone then .maxiter else .none, used⟩
      else minuitLoop s fuel (i + 1) (some m) used

/-- `Minuit._minimize` (minimizer_minuit.py:170-240). -/
def minuit (s : Minuit X K) : Except Err (MinuitReport X K) := minuitLoop s 20 0 none 0

/-- `minimizer.tol = self.tol / 0.002 / loss.errordef` (minimizer_minuit.py:307-309). -/
def minuitTol (tol errordef : K) : K := tol / (2 / 1000) / errordef

/-- iminuit's documented goal of `migrad`: `0.002 * tol * errordef` (iminuit, not part of the repository). -/
def edmGoal (minuitTol errordef : K) : K := 2 / 1000 * minuitTol * errordef

end

/-! ## Constructors -/

/-- A dictionary of options. -/
abbrev Options := List (String × Option ℤ)

/-- `options[k] = v`. -/
def Options.set (o : Options) (k : String) (v : Option ℤ) : Options := if o.any (·.1 == k) then o.map (fun e => if e.1 = k then (k, v) else e) else o ++ [(k, v)]

/-- The keys the constructor of `Ipyopt` does not accept (ipopt.py:185-199). -/
def ipoptForbidden : List String := ["tol", "max_iter", "limited_memory_update_type", "limited_memory_max_history", "hessian_approximation"]

/-- `Ipyopt.__init__` (ipopt.py:179-202): the user's dictionary afterwards and the stored options, which are the same object. -/
def ipoptInit (options : Options) (maxcor : Option ℤ) : Options × Except Err Options :=
  if options.any fun e => ipoptForbidden.contains e.1 then (options, .error .valueError)
  else (options.set "limited_memory_max_history" maxcor, .ok (options.set "limited_memory_max_history" maxcor))

/-- The arguments of `Minuit` that are looked at (minimizer_minuit.py:119-146); `legacy` ones are left out. `modeFloat`: the mode is a
float; `tolInt`: the tolerance is an int. -/
structure MinuitArgs where
  mode : Option ℤ
  modeFloat : Bool
  tolInt : Bool
  maxiter : Option ℤ

/-- `Minuit.__init__` (minimizer_minuit.py:119-146): the user's dictionary afterwards and the stored options. -/
def minuitInit (options : Options) (a : MinuitArgs) : Options × Except Err Options :=
  if a.modeFloat || a.tolInt then (options, .error .typeError)
  else
    let o := options.set "ncall" (some (a.maxiter.getD 0))
    let mode := a.mode.getD 1
    if 0 ≤ mode ∧ mode ≤ 2 then (o.set "strategy" (some mode), .ok (o.set "strategy" (some mode))) else (o, .error .valueError)

/-- The options `_make_minuit` knows (minimizer_minuit.py:246-272); the others make the minimisation fail. -/
def minuitMinimizeOptions (o : Options) : Except Err Unit :=
  if o.all fun e => ["precision", "ncall", "pedantic", "strategy"].contains e.1 then .ok () else .error .valueError

/-- The algorithm of NLopt that is run (minimizer_nlopt.py:187) and the local one (minimizer_nlopt.py:222), whatever was asked for when the
minimiser was made (`self._algorithm`, minimizer_nlopt.py:146). -/
def nloptAlgorithm (_asked : String) : String := "LD_LBFGS"

/-- The choices for the gradient of a Scipy minimiser. -/
inductive Grad
  | notSupported
  | none
  | bool (b : Bool)
  | zfit
  | twoPoint
  | threePoint
deriving DecidableEq

/-- The choices for the hessian of a Scipy minimiser; the strategies are given as a class or as an instance. -/
inductive Hess
  | notSupported
  | none
  | bool (b : Bool)
  | zfit
  | twoPoint
  | threePoint
  | strategyClass
  | strategyInstance
deriving DecidableEq

/-- The checks and conversions of `ScipyBaseMinimizer.__init__` (minimizers_scipy.py:128-171); `validG` and `validH` are the sets of
choices of the class. The results are the entries `grad` and `hess` of the options, if there are any. -/
def scipyDerivatives (validG : Grad → Bool) (validH : Hess → Bool) (g : Grad) (h : Hess) : Except Err (Option Grad × Option Hess) :=
  if (g = .bool true ∨ g = .twoPoint ∨ g = .threePoint) ∧ ¬ (h = .strategyInstance ∨ h = .notSupported) then .error .valueError
  else if g ≠ .notSupported ∧ validG g = false then .error .valueError
  else if h ≠ .notSupported ∧ validH h = false then .error .valueError
  else if h = .strategyInstance then .error .valueError
  else
    .ok (if g = .notSupported then Option.none else some (if g = .bool false ∨ g = .none then .zfit else if g = .bool true then .none else g),
      if h = .notSupported then Option.none else some (if h = .bool true then .none else if h = .bool false ∨ h = .none then .zfit else h))

end Zfit.Wrap
