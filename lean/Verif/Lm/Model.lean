import Verif.Common.Py
import Verif.Min.EvalModel
import Mathlib.Data.Matrix.Mul
import Mathlib.Algebra.Order.Field.Basic

/-! Model of zfit/minimizers/minimizer_lm.py (the Levenberg-Marquardt minimiser) and of the criterion EDM.

Numbers are exact elements of an ordered field `K`, NaN is `none`; infinities are not modelled. Parameter values are
vectors `Fin n → K`. The evaluator of the loss is a parameter (its own model is area `Min`; `minEv` below connects the two),
as is the solver of linear equations. -/

namespace Zfit.Lm

open Zfit Matrix

variable {σ K : Type} {n : ℕ}

/-- zfit/minimizers/evaluation.py `LossEval`, what the minimiser uses of it: each method changes the state of the
evaluator and answers or raises. -/
structure Ev (σ K : Type) (n : ℕ) where
  value : σ → (Fin n → K) → σ × Except Err (Option K)
  valueGradient : σ → (Fin n → K) → σ × Except Err (Option K × (Fin n → K))
  hessian : σ → (Fin n → K) → σ × Except Err (Matrix (Fin n) (Fin n) K)

variable [Field K] [LinearOrder K]

/-- zfit/minimizers/minimizer_lm.py 134-137 `_damped_hess0`: `I` is the unit matrix, `D` is one off the diagonal, and the
vector `1 + diag(hess)` is broadcast along the rows. -/
def damped (H : Matrix (Fin n) (Fin n) K) (L : K) : Matrix (Fin n) (Fin n) K := fun i j =>
  let I : K := if i = j then 1 else 0
  let D : K := 1 - I
  H i j * (I + D / (1 + L)) + L * I * (1 + H j j)

/-- zfit/minimizers/minimizer_lm.py 156: `-h^T D h - 2 h^T g`. -/
def expectedImprovement (D : Matrix (Fin n) (Fin n) K) (g h : Fin n → K) : K := -(h ⬝ᵥ (D *ᵥ h)) - 2 * (h ⬝ᵥ g)

/-- `<` and `<=` of floats, false if one of them is NaN. -/
def nanLt (a b : Option K) : Bool :=
  match a, b with
  | some a, some b => decide (a < b)
  | _, _ => false

def nanLe (a b : Option K) : Bool :=
  match a, b with
  | some a, some b => decide (a ≤ b)
  | _, _ => false

/-- The values set in the constructor (minimizer_lm.py 104-124) and the solver. -/
structure Cfg (K : Type) (n : ℕ) where
  rhoMin : K
  rhoMax : K
  solve : Matrix (Fin n) (Fin n) K → (Fin n → K) → Except Err (Fin n → K)

/-- `self.Lup`, `self.Ldn` (minimizer_lm.py 121-122). -/
def lup : K := 11
def ldn : K := 9

/-- The direction in which the damping is changed (minimizer_lm.py 145). -/
inductive Dir
  | none
  | better
  | worse
deriving DecidableEq

/-- The local variables of `_mode0_step` that change during the tries. `best` and `scary` are the two tuples of 143-144:
step, value of the loss there, damping; `none` stands for the initial tuples, which carry the initial value and no step
(`best` is `none` as long as `nostep`). -/
structure Tries (K : Type) (n : ℕ) where
  L : K
  best : Option ((Fin n → K) × K × K)
  scary : Option ((Fin n → K) × K × K)
  dir : Dir
  hess : Matrix (Fin n) (Fin n) K

/-- `best[1]` and `scary_best[1]`. -/
def valueOf (init : Option K) (b : Option ((Fin n → K) × K × K)) : Option K :=
  match b with
  | none => init
  | some b => some b.2.1

/-- minimizer_lm.py 174-175: `rho < rho_min or rho > rho_max` with `rho = (init - chi2) / expected`. Division by zero gives
an infinity (which is out of range) or NaN (for which both comparisons are false). -/
def rhoBad (c : Cfg K n) (init : Option K) (chi2 expected : K) : Bool :=
  match init with
  | none => false
  | some i =>
    if expected = 0 then decide (i ≠ chi2)
    else decide ((i - chi2) / expected < c.rhoMin) || decide ((i - chi2) / expected > c.rhoMax)

/-- minimizer_lm.py 197: `(init - best) / init > 0.1`; for `init = 0` the quotient is plus infinity if the loss improved. -/
def verySuccessful (init : Option K) (best : K) : Bool :=
  match init with
  | none => false
  | some i => if i = 0 then decide (i - best > 0) else decide ((i - best) / i > 1 / 10)

/-- minimizer_lm.py 170-199: what is done with a finite value `chi2` reached with the step `h`; `true` means `break`. -/
def judge (c : Cfg K n) (init : Option K) (expected : K) (h : Fin n → K) (chi2 : K) (t : Tries K n) : Tries K n × Bool :=
  let t := if nanLe (some chi2) (valueOf init t.scary) then { t with scary := some (h, chi2, t.L) } else t
  if rhoBad c init chi2 expected then
    let L := t.L * lup
    if L > 1000000000 ∨ t.dir = .better then ({ t with L := L }, true) else ({ t with L := L, dir := .worse }, false)
  else if nanLt (some chi2) (valueOf init t.best) then
    let L := t.L / ldn
    let t' := { t with best := some (h, chi2, t.L), L := L }
    if L < 1 / 1000000000 ∨ t.dir = .worse then (t', true)
    else ({ t' with dir := .better }, verySuccessful init chi2)
  else if nanLe (valueOf init t.best) (some chi2) ∧ t.dir ≠ .better ∧ t.L < 1000000000 then
    ({ t with L := t.L * lup, dir := .worse }, false)
  else (t, true)

/-- minimizer_lm.py 159-168: a value that is not finite. -/
def notFinite (t : Tries K n) : Tries K n × Bool :=
  if t.dir = .better then ({ t with L := t.L * lup }, true) else ({ t with L := t.L * lup, dir := .worse }, false)

/-- minimizer_lm.py 147-199: one turn of the loop at the point `x`. -/
def oneTry (c : Cfg K n) (ev : Ev σ K n) (x : Fin n → K) (init : Option K) (g : Fin n → K) (H : Matrix (Fin n) (Fin n) K)
    (s : σ) (t : Tries K n) : σ × Except Err (Tries K n × Bool) :=
  let D := damped H t.L
  match c.solve D (-g) with
  | .error e => (s, .error e)
  | .ok h =>
    match ev.value s (x + h) with
    | (s, .error e) => (s, .error e)
    | (s, .ok none) => (s, .ok (notFinite { t with hess := D }))
    | (s, .ok (some chi2)) => (s, .ok (judge c init (expectedImprovement D g h) h chi2 { t with hess := D }))

/-- minimizer_lm.py 147: `for _ in range(10)`, here with the number of turns left. -/
def tries (c : Cfg K n) (ev : Ev σ K n) (x : Fin n → K) (init : Option K) (g : Fin n → K) (H : Matrix (Fin n) (Fin n) K) :
    ℕ → σ → Tries K n → σ × Except Err (Tries K n)
  | 0, s, t => (s, .ok t)
  | k + 1, s, t =>
    match oneTry c ev x init g H s t with
    | (s, .error e) => (s, .error e)
    | (s, .ok (t, true)) => (s, .ok t)
    | (s, .ok (t, false)) => tries c ev x init g H k s t

/-- What `_mode0_step` returns (minimizer_lm.py 206). -/
structure Step (K : Type) (n : ℕ) where
  h : Fin n → K
  val : K
  L : K
  hess : Matrix (Fin n) (Fin n) K
  grad : Fin n → K

/-- minimizer_lm.py 139-206 `_mode0_step`; `none`: `OptimizeStop`. -/
def mode0Step (c : Cfg K n) (ev : Ev σ K n) (s : σ) (x : Fin n → K) (L : K) : σ × Except Err (Option (Step K n)) :=
  match ev.valueGradient s x with
  | (s, .error e) => (s, .error e)
  | (s, .ok (init, g)) =>
    match ev.hessian s x with
    | (s, .error e) => (s, .error e)
    | (s, .ok H) =>
      match tries c ev x init g H 10 s { L := L, best := none, scary := none, dir := .none, hess := H } with
      | (s, .error e) => (s, .error e)
      | (s, .ok t) =>
        match t.best, t.scary with
        | some b, _ => (s, .ok (some ⟨b.1, b.2.1, b.2.2, t.hess, g⟩))
        | none, some b => (s, .ok (some ⟨b.1, b.2.1, b.2.2, t.hess, g⟩))
        | none, none => (s, .ok none)

/-- What the convergence criterion sees: the point reached, and the approximations of gradient and hessian
(minimizer_lm.py 239-249). -/
abbrev Criterion (K : Type) (n : ℕ) := (x : Fin n → K) → (g : Fin n → K) → (H : Matrix (Fin n) (Fin n) K) → Except Err K

/-- zfit/minimizers/termination.py 66-67, 103-128 `EDM._calculate` with both approximations given: `g^T H^-1 g / 2`;
999999 if the matrix is singular (the solver raises) or the result negative. The inverse is applied by solving the
equation. -/
def edm (solve : Matrix (Fin n) (Fin n) K → (Fin n → K) → Except Err (Fin n → K)) : Criterion K n := fun _ g H =>
  match solve H g with
  | .error _ => .ok 999999
  | .ok y => .ok (if (g ⬝ᵥ y) / 2 < 0 then 999999 else (g ⬝ᵥ y) / 2)

/-- The values of the `FitResult` (minimizer_lm.py 264-274); `history` are all values of the loss, latest first. -/
structure Result (K : Type) (n : ℕ) where
  params : Fin n → K
  fmin : Option K
  edm : Option K
  valid : Bool
  history : List (Option K)

/-- A minimisation: the evaluator, `clip` (the value of a parameter is its stored value clipped to its limits,
zfit/core/parameter.py 508-514), the criterion and its tolerance `tol * errordef` (termination.py 32). -/
structure Job (σ K : Type) (n : ℕ) where
  cfg : Cfg K n
  ev : Ev σ K n
  clip : (Fin n → K) → (Fin n → K)
  crit : Criterion K n
  tol : K

/-- The local variables of `_minimize`: the point, the damping, the history (latest first) and the last criterion value,
`none` if no step was taken. -/
structure Walk (K : Type) (n : ℕ) where
  x : Fin n → K
  L : K
  history : List (Option K)
  last : Option K

/-- minimizer_lm.py 259-274, after the loop was left with `break`; without any step the assertion fails. -/
def finish (j : Job σ K n) (w : Walk K n) (valid : Bool) : Except Err (Result K n) :=
  match w.last with
  | none => .error .assertionError
  | some e => .ok ⟨j.clip w.x, w.history.head?.join, some e, valid, w.history⟩

/-- minimizer_lm.py 222-257: the loop with the number of iterations left. -/
def iterate (j : Job σ K n) : ℕ → σ → Walk K n → σ × Except Err (Result K n)
  | 0, s, _ => (s, .error .maximumIterationReached)
  | k + 1, s, w =>
    match mode0Step j.cfg j.ev s w.x w.L with
    | (s, .error e) => (s, .error e)
    | (s, .ok none) => (s, finish j w false)
    | (s, .ok (some st)) =>
      match j.crit (w.x + st.h) st.grad st.hess with
      | .error e => (s, .error e)
      | .ok e =>
        let w' : Walk K n := ⟨w.x + st.h, st.L, some st.val :: w.history, some e⟩
        if e < j.tol then (s, finish j w' true) else iterate j k s w'

/-- minimizer_lm.py 208-274 `_minimize` from the parameter values `x` (214: `assign_values` with `init` belongs to the
caller). -/
def minimize (j : Job σ K n) (maxiter : ℕ) (s : σ) (x : Fin n → K) : σ × Except Err (Result K n) :=
  match j.ev.value s x with
  | (s, .error e) => (s, .error e)
  | (s, .ok v) => iterate j maxiter s ⟨x, 1, [v], none⟩

/-- The evaluator of area `Min` (zfit/minimizers/evaluation.py) as the minimiser uses it, for a loss whose evaluations
have the outcomes `val`, `vg` and `hs`. -/
def minEv (c : Min.Cfg K) (val : (Fin n → K) → Min.Out K Unit) (vg : (Fin n → K) → Min.Out (K × List K) (Option K))
    (hs : (Fin n → K) → Min.Out (List (List K)) Unit) : Ev (Min.St K) K n where
  value s x :=
    match Min.request c s (.value (List.ofFn x) (val x)) with
    | (s, .error e) => (s, .error e)
    | (s, .ok (.value (.num v))) => (s, .ok (some v))
    | (s, .ok _) => (s, .ok none)
  valueGradient s x :=
    match Min.request c s (.valueGradient (List.ofFn x) (vg x)) with
    | (s, .error e) => (s, .error e)
    | (s, .ok (.valueGradient (.num v) (some g))) => (s, .ok (some v, fun i => g.getD i 0))
    | (s, .ok (.valueGradient _ (some g))) => (s, .ok (none, fun i => g.getD i 0))
    | (s, .ok _) => (s, .error .typeError)
  hessian s x :=
    match Min.request c s (.hessian (List.ofFn x) (hs x)) with
    | (s, .error e) => (s, .error e)
    | (s, .ok (.hessian (some h))) => (s, .ok fun i j => (h.getD i []).getD j 0)
    | (s, .ok _) => (s, .error .invalidArgument)

end Zfit.Lm
