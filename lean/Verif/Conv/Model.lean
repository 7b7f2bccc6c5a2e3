import Verif.Common.Py
import Verif.Kde.Model
import Mathlib.Algebra.Order.Floor.Ring
import Mathlib.Algebra.BigOperators.Intervals

/-! Model of zfit/models/convolution.py (`FFTConvPDFV1`, one observable) and of `sum_samples` (zfit/core/data.py).

Numbers are exact elements of an ordered field. The number of points `n` is not negative. The conversion and sorting of the spaces
(`_check_input_limits`, `with_obs`) is that of the space and coordinate areas: here a space of one observable is the list of its
ranges. -/

namespace Zfit.Conv

open Zfit Finset

variable {K : Type} [Field K] [LinearOrder K]

/-- How the values between the points are obtained (convolution.py 196-212). -/
inductive Interp
  | linear
  | spline (order : ℤ)
  deriving DecidableEq, Repr

/-- convolution.py 196-212: the argument `interpolation`, as the parts of the string between colons (`none` is `None`). `toInt` is
Python's `int(str)`. The order after a colon is read before the name is checked, and is accepted (and ignored) for `linear`. -/
def parseInterp (toInt : String → Option ℤ) : Option (List String) → Except Err Interp
  | none => .ok .linear
  | some [a] => pick a 3
  | some [a, b] => match toInt b with
    | some k => pick a k
    | none => .error .valueError
  | some _ => .error .valueError
where
  /-- convolution.py 205-210. -/
  pick (a : String) (k : ℤ) : Except Err Interp :=
    if a = "spline" then .ok (.spline k) else if a = "linear" then .ok .linear else .error .valueError

/-- convolution.py 217-222 and 229-234: exactly one range. -/
def oneRange (space : List (K × K)) : Except Err (K × K) :=
  match space with
  | [] => .error .limitsNotSpecified
  | [r] => .ok r
  | _ => .error .workInProgress

/-- convolution.py 255-258: the number of points of the kernel. -/
def nKernel (n : Option ℕ) : ℕ :=
  let m := n.getD 51
  if m % 2 = 0 then m + 1 else m

/-- `_conv_limits` (convolution.py 302-308): range and number of points at which the function and the kernel are evaluated. -/
structure Grid (K : Type) where
  lowerF : K
  upperF : K
  nF : ℕ
  lowerK : K
  upperK : K
  nK : ℕ
  deriving DecidableEq

/-- convolution.py 260-308: the grids for a function on `(lf, uf)` and a kernel on `(lk, uk)` with `n` points. -/
def mkGrid [FloorRing K] (lf uf lk uk : K) (n : ℕ) : Except Err (Grid K) :=
  let lowerS := lf + lk
  let upperS := uf + uk
  if uf - lf < uk - lk then .error .workInProgress
  else
    let ratio := (upperS - lowerS) / (uk - lk)
    let nF := ⌈ratio * n⌉.toNat
    let binwidth := (uk - lk) / n
    let toExtend := (binwidth * nF - (upperS - lowerS)) / 2
    .ok ⟨lowerS - toExtend, upperS + toExtend, nF, lk, uk, n⟩

/-- convolution.py 186-308, `__init__` for one observable: `limitsFunc` and `limitsKernel` default to the spaces of the two pdfs. -/
def setup [FloorRing K] (spaceFunc spaceKernel : List (K × K)) (limitsFunc limitsKernel : Option (List (K × K))) (n : Option ℕ)
    (toInt : String → Option ℤ) (interpolation : Option (List String)) : Except Err (Interp × Grid K) := do
  let i ← parseInterp toInt interpolation
  let f ← oneRange (limitsFunc.getD spaceFunc)
  let k ← oneRange (limitsKernel.getD spaceKernel)
  let g ← mkGrid f.1 f.2 k.1 k.2 (nKernel n)
  return (i, g)

/-- A row of `n` numbers continued by zeros on both sides (`tf.nn.convolution` with padding `SAME`). -/
def padded (n : ℕ) (y : ℕ → K) (i : ℤ) : K := if 0 ≤ i ∧ i < n then y i.toNat else 0

/-- `tf.nn.convolution(input, filters, strides=1, padding="SAME")` in one dimension (TensorFlow; trusted): the cross-correlation,
`(m - 1) / 2` zeros in front. -/
def sameCorrelation (n : ℕ) (y : ℕ → K) (m : ℕ) (w : ℕ → K) (i : ℕ) : K :=
  ∑ j ∈ range m, w j * padded n y ((i : ℤ) + j - ((m - 1) / 2 : ℕ))

/-- convolution.py 312-314: the points at which the function is evaluated. -/
def Grid.xF (g : Grid K) (j : ℕ) : K := Kde.linspace g.lowerF g.upperF g.nF j

/-- convolution.py 316-318: the points at which the kernel is evaluated. -/
def Grid.xK (g : Grid K) (m : ℕ) : K := Kde.linspace g.lowerK g.upperK g.nK m

/-- convolution.py 345 `kernel_shift`. -/
def Grid.shift (g : Grid K) : K := (g.upperK + g.lowerK) / 2

/-- convolution.py 320-367: the values at the points of the grid. The kernel is reversed before the cross-correlation. -/
def convolved (g : Grid K) (f k : K → K) (i : ℕ) : K :=
  sameCorrelation g.nF (fun j => f (g.xF j)) g.nK (fun m => k (g.xK (g.nK - 1 - m))) i

/-- `tfp.math.batch_interp_regular_1d_grid` with its default `constant_extension` (TensorFlow Probability; trusted): linear between
the `n` values `y` at equidistant points from `a` to `b`, constant outside. -/
def interpRegular [FloorRing K] (x a b : K) (n : ℕ) (y : ℕ → K) : K :=
  let idx := min (max ((x - a) / (b - a) * ((n : K) - 1)) 0) ((n : K) - 1)
  let above := min (⌊idx⌋.toNat + 1) (n - 1)
  let below := above - 1
  let t := idx - below
  t * y above + (1 - t) * y below

/-- convolution.py 311-399 `_unnormalized_pdf` with linear interpolation. -/
def unnormalized [FloorRing K] (g : Grid K) (f k : K → K) (x : K) : K :=
  interpRegular x (g.lowerF + g.shift) (g.upperF + g.shift) g.nF (convolved g f k)

/-! ## Sampling -/

/-- zfit/core/data.py 1929-1968 `sum_samples` (one observable): the events are added in pairs, the second sample shuffled. `shuffle`
is `z.random.shuffle`. -/
def sumSamples (weighted1 weighted2 : Bool) (dropWeights : Bool) (shuffle : List K → List K) (s1 s2 : List K) : Except Err (List K) :=
  if (weighted1 || weighted2) && !dropWeights then .error .workInProgress
  else .ok (List.zipWith (· + ·) s1 (shuffle s2))

/-- convolution.py 472-477: the range in which the function is sampled, for a kernel whose space is `(kl, ku)`. -/
def sampleRange (kl ku : K) (limits : K × K) : K × K := (limits.1 + kl, limits.2 + ku)

/-- `limits.filter` of one range (`Space.inside`: both ends belong to it). -/
def insideRange (limits : K × K) (x : K) : Bool := decide (limits.1 ≤ x ∧ x ≤ limits.2)

/-- convolution.py 470-496 `AddingSampleAndWeights.__call__`: the proposals. `sampleF r n` and `sampleK r n` sample the function and the
kernel in the range `r`. The thresholds are 1/2, the weights and their maximum are 1. -/
def propose (sampleF sampleK : K × K → ℕ → List K) (shuffle : List K → List K) (kernelSpace limitsKernel limits : K × K)
    (numericChecks : Bool) (n : ℕ) : Except Err (List K) := do
  let ys := sampleF (sampleRange kernelSpace.1 kernelSpace.2 limits) n
  let ks := sampleK limitsKernel n
  let s ← sumSamples false false false shuffle ys ks
  let inside := s.filter (insideRange limits)
  if numericChecks && inside.isEmpty then .error .invalidArgument else return inside

end Zfit.Conv
