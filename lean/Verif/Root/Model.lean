import Mathlib.Algebra.Order.Field.Basic
import Mathlib.Algebra.Order.Group.Unbundled.Abs

/-! Model of zfit/util/root_search.py (Brent's root search) and of the two places that use it to choose a KDE bandwidth.

Numbers are the elements of an ordered field `K`, so every value is finite: the `is_finite` tests (248, 492-493) never
fire. The tensors have one element (the only use in zfit), so that `tf.reduce_all(finished)` is `finished`. -/

namespace Zfit.Root

variable {K : Type} [Field K] [LinearOrder K]

/-- zfit/util/root_search.py 72-85 `_BrentSearchState`. -/
structure State (K : Type) where
  best : K
  last : K
  contra : K
  fbest : K
  flast : K
  fcontra : K
  stepBest : K
  stepLast : K
  iters : Nat
  finished : Bool

/-- zfit/util/root_search.py 88-97 `_BrentSearchParams`. -/
structure Params (K : Type) where
  f : K → K
  maxIter : Nat
  atol : K
  rtol : K
  ftol : K

/-- zfit/util/root_search.py 114-137 `_secant_step`. -/
def secantStep (x1 x2 y1 y2 : K) : K := -y1 * (x1 - x2) / (y1 - y2)

/-- `tf.math.divide_no_nan`: zero if the denominator is zero. -/
def divideNoNan (a b : K) : K := if b = 0 then 0 else a / b

/-- zfit/util/root_search.py 140-164 `_quadratic_interpolation_step`. -/
def quadraticStep (x1 x2 x3 y1 y2 y3 : K) : K :=
  let r2 := (x2 - x1) / (y2 - y1)
  let r3 := (x3 - x1) / (y3 - y1)
  Neg.neg x1 * divideNoNan (x3 * r3 - x2 * r2) (r3 * r2 * (x3 - x2))

/-- zfit/util/root_search.py 204-214: the contrapoint is replaced if the last two estimates have opposite signs. -/
def replaceContra (s : State K) : State K :=
  let c : Bool := !s.finished && decide (s.flast * s.fbest < 0)
  let contra := if c then s.last else s.contra
  let fcontra := if c then s.flast else s.fcontra
  let stepLast := if c then s.best - s.last else s.stepLast
  let stepBest := if c then stepLast else s.stepBest
  { s with contra := contra, fcontra := fcontra, stepLast := stepLast, stepBest := stepBest }

/-- zfit/util/root_search.py 216-230: best estimate and contrapoint are exchanged if the contrapoint is better. -/
def replaceBest (s : State K) : State K :=
  let c : Bool := !s.finished && decide (|s.fcontra| < |s.fbest|)
  let last := if c then s.best else s.last
  let best := if c then s.contra else s.best
  let contra := if c then last else s.contra
  let flast := if c then s.fbest else s.flast
  let fbest := if c then s.fcontra else s.fbest
  let fcontra := if c then flast else s.fcontra
  { s with best := best, last := last, contra := contra, fbest := fbest, flast := flast, fcontra := fcontra }

/-- zfit/util/root_search.py 234-236. -/
def rootTolerance (p : Params K) (s : State K) : K := 1 / 2 * (p.atol + p.rtol * |s.best|)

/-- zfit/util/root_search.py 237. -/
def bisectionStep (s : State K) : K := 1 / 2 * (s.contra - s.best)

/-- zfit/util/root_search.py 245-250 (without `is_finite`). -/
def finishes (p : Params K) (s : State K) : Bool :=
  s.finished || decide (s.iters ≥ p.maxIter) || decide (|bisectionStep s| < rootTolerance p s) ||
    decide (|s.fbest| ≤ p.ftol)

/-- zfit/util/root_search.py 254-259. -/
def computeShort (p : Params K) (s : State K) (finished : Bool) : Bool :=
  if finished then false else decide (rootTolerance p s < |s.stepLast|) && decide (|s.fbest| < |s.flast|)

/-- zfit/util/root_search.py 261-289. -/
def shortStep (p : Params K) (s : State K) (finished : Bool) : K :=
  if computeShort p s finished then
    if s.last = s.contra then secantStep s.best s.last s.fbest s.flast
    else quadraticStep s.fbest s.flast s.fcontra s.best s.last s.contra
  else 0

/-- zfit/util/root_search.py 296-304. -/
def useShort (p : Params K) (s : State K) (finished : Bool) : Bool :=
  if computeShort p s finished then
    decide (2 * |shortStep p s finished| < min (3 * |bisectionStep s| - rootTolerance p s) |s.stepLast|)
  else false

/-- zfit/util/root_search.py 307-308: the step of this iteration. -/
def chosenStep (p : Params K) (s : State K) (finished : Bool) : K :=
  if finished then 0 else if useShort p s finished then shortStep p s finished else bisectionStep s

/-- zfit/util/root_search.py 312-320: what is added to the best estimate. -/
def increment (p : Params K) (s : State K) (finished : Bool) : K :=
  if finished then 0
  else if rootTolerance p s < |chosenStep p s finished| then chosenStep p s finished
  else if bisectionStep s > 0 then rootTolerance p s else -(rootTolerance p s)

/-- zfit/util/root_search.py 232-340: the part of the loop body after the exchange. -/
def advance (p : Params K) (s : State K) : State K :=
  let finished := finishes p s
  let stepLast := if useShort p s finished then s.stepBest else bisectionStep s
  let stepBest := chosenStep p s finished
  let last := if finished then s.last else s.best
  let best := s.best + increment p s finished
  let flast := if finished then s.flast else s.fbest
  let fbest := if finished then s.fbest else p.f best
  let iters := if finished then s.iters else s.iters + 1
  { best := best, last := last, contra := s.contra, fbest := fbest, flast := flast, fcontra := s.fcontra,
    stepBest := stepBest, stepLast := stepLast, iters := iters, finished := finished }

/-- zfit/util/root_search.py 183-340 `_brent_loop_body`. -/
def body (p : Params K) (s : State K) : State K := advance p (replaceBest (replaceContra s))

/-- zfit/util/root_search.py 465-508 of `_prepare_brent_args`: the initial state; the values at the brackets are
evaluated (zfit never gives them). -/
def initial (p : Params K) (left right : K) : State K :=
  let fl := p.f left
  let fr := p.f right
  let swap := |fl| < |fr|
  let fbest := if swap then fl else fr
  { best := if swap then left else right
    last := if swap then right else left
    contra := 0
    fbest := fbest
    flast := if swap then fr else fl
    fcontra := 0
    stepBest := 0
    stepLast := 0
    iters := 0
    finished := decide (0 ≥ p.maxIter) || decide (|fbest| ≤ p.ftol) }

/-- zfit/util/root_search.py 673-681: `tf.while_loop` with the condition "not finished" and `maximum_iterations`. -/
def loop (p : Params K) : Nat → State K → State K
  | 0, s => s
  | n + 1, s => if s.finished then s else loop p n (body p s)

/-- zfit/util/root_search.py 41-60 `BrentResults`. -/
structure Results (K : Type) where
  root : K
  value : K
  iters : Nat
  converged : Bool
deriving DecidableEq, Repr

/-- zfit/util/root_search.py 683-691. -/
def results (p : Params K) (s : State K) : Results K :=
  { root := s.best, value := s.fbest, iters := s.iters, converged := decide (|s.fbest| ≤ p.ftol) }

/-- zfit/util/root_search.py 524-691, 694-891 `brentq` with `validate_args=False` (the default, and the only use). -/
def brentq (p : Params K) (left right : K) : Results K := results p (loop p p.maxIter (initial p left right))

/-- zfit/util/improved_sheather_jones.py 110-157 `_find_root`, the loop: search in `[0, right]`, double `right` until
converged; `tf.while_loop` is unbounded, here at most `fuel` rounds are made and `none` means that it has not stopped.
The bracket is `10e-12 + 0.01 * (N2 - 50) / 1000` with `N2` the number of distinct points clipped to `[50, 1050]`; here
a parameter `right`. `f` is the fixed-point function, `100` and the tolerances are those passed or defaulted. -/
def findRoot (p : Params K) (right : K) : Nat → Option K
  | 0 => none
  | fuel + 1 =>
    let r := brentq p 0 right
    let tStar := r.root - r.value
    if r.converged then some tStar else findRoot p (right * 2) fuel

/-- zfit/util/improved_sheather_jones.py 101-107: the fixed-point function is `t - t_opt(t)`. -/
def fixedPoint (tOpt : K → K) (t : K) : K := t - tOpt t

/-- zfit/util/improved_sheather_jones.py 122-130: the first right bracket for `N` distinct points. -/
def rightBracket (N : K) : K := 10 / 1000000000000 + 1 / 100 * (max (min 1050 N) 50 - 50) / 1000

/-- zfit/util/improved_sheather_jones.py 144-146: the parameters of the search: `absolute_root_tolerance = 2e-12`, the
defaults `function_tolerance = 2e-7`, `max_iterations = 100`, and `relative_root_tolerance = 4 eps` with the machine
precision `eps` of doubles, `2 ^ (-52)`. -/
def isjParams (tOpt : K → K) : Params K :=
  { f := fixedPoint tOpt, maxIter := 100, atol := 2 / 1000000000000, rtol := 4 / 2 ^ 52, ftol := 2 / 10000000 }

/-- zfit/util/improved_sheather_jones.py 208-213 `calculate_bandwidth`: the square root of the root found, times the range
`R = max(data) - min(data)`; `sqrt` is a parameter here, `N` the number of distinct points and `tOpt` the function of
70-104 (which depends on the binned data). `none`: the search has not stopped after `fuel` rounds. -/
def isjBandwidth (sqrt : K → K) (tOpt : K → K) (N R : K) (fuel : Nat) : Option K :=
  (findRoot (isjParams tOpt) (rightBracket N) fuel).map fun t => sqrt t * R

end Zfit.Root
