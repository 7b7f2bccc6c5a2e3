import Verif.Common.Py
import Mathlib.Algebra.Order.Floor.Ring
import Mathlib.Algebra.Order.Field.Basic
import Mathlib.Algebra.BigOperators.Group.List.Basic

/-! Model of zfit/models/kde.py (padding, weights of the kernels) and zfit/util/binning.py (binning on a grid).

Numbers are exact elements of an ordered field. -/

namespace Zfit.Kde

open Zfit

variable {K V : Type} [Field K] [LinearOrder K]

/-- The argument `padding`: `False`, `True`, a number or a dictionary. A callable is not modelled. -/
inductive Padding (K : Type)
  | off
  | on
  | number (f : K)
  | dict (d : List (String × K))

/-- `znp.where(area)[0]`. -/
def whereIdx (p : K → Bool) (data : List K) : List ℕ := (List.range data.length).filter fun i => (data[i]?.map p).getD false

/-- `tf.gather`: an index out of range is an error. -/
def gather (l : List V) (idx : List ℕ) : Except Err (List V) :=
  idx.mapM fun i => match l[i]? with
    | some v => .ok v
    | none => .error .invalidArgument

/-- `gather` for an optional array. -/
def gatherOpt (l : Option (List V)) (idx : List ℕ) : Except Err (Option (List V)) :=
  match l with
  | none => .ok none
  | some l => (gather l idx).map some

/-- `znp.min(data)` and `znp.max(data)`; of nothing they are an error. -/
def minimum : List K → Except Err K
  | [] => .error .valueError
  | a :: l => .ok (l.foldl min a)

def maximum : List K → Except Err K
  | [] => .error .valueError
  | a :: l => .ok (l.foldl max a)

/-- Concatenation of optional arrays. -/
def catOpt (a b c : Option (List V)) : Option (List V) := b.map fun b => a.getD [] ++ b ++ c.getD []

/-- zfit/models/kde.py 522-533: the fractions to mirror below and above; other keys are rejected. -/
def fractions : Padding K → Except Err (Option K × Option K)
  | .off => .ok (none, none)
  | .on => .ok (some (1 / 10), some (1 / 10))
  | .number f => .ok (some f, some f)
  | .dict d =>
    if d.all fun kv => kv.1 = "lowermirror" || kv.1 = "uppermirror" then
      .ok (dictGet d "lowermirror", dictGet d "uppermirror")
    else .error .valueError

/-- The indices of the events to mirror (kde.py 547-550, 563-566). -/
def mirrorIdx (f : Option K) (p : K → K → Bool) (data : List K) : List ℕ :=
  match f with
  | none => []
  | some f => whereIdx (p f) data

/-- zfit/models/kde.py 541-581: mirroring at the limits `lo` and `hi`, `diff` being their distance. -/
def padAt (lo hi : K) (lower upper : Option K) (data : List K) (weights bandwidth : Option (List V)) :
    Except Err (List K × Option (List V) × Option (List V)) := do
  let diff := hi - lo
  let lowerIdx := mirrorIdx lower (fun f x => decide (x < lo + diff * f)) data
  let upperIdx := mirrorIdx upper (fun f x => decide (x > hi - diff * f)) data
  let lowerData ← gather data lowerIdx
  let lowerWeights ← gatherOpt weights lowerIdx
  let lowerBw ← gatherOpt bandwidth lowerIdx
  let upperData ← gather data upperIdx
  let upperWeights ← gatherOpt weights upperIdx
  let upperBw ← gatherOpt bandwidth upperIdx
  .ok (lowerData.map (fun x => -x + 2 * lo) ++ data ++ upperData.map (fun x => -x + 2 * hi),
    catOpt lowerWeights weights upperWeights, catOpt lowerBw bandwidth upperBw)

/-- zfit/models/kde.py 534-539: the given limits or the smallest and the largest value. -/
def padLimits (limits : Option (K × K)) (data : List K) : Except Err (K × K) :=
  match limits with
  | some l => .ok l
  | none => do
    let lo ← minimum data
    let hi ← maximum data
    .ok (lo, hi)

/-- zfit/models/kde.py 519-581 `padreflect_data_weights_1dim`, as called by `_convert_init_data_weights_size` (473-477: not
called if padding is `False`). `weights` and `bandwidth` are the optional arrays; a bandwidth that is not an array is not
passed here. -/
def padreflect (mode : Padding K) (limits : Option (K × K)) (data : List K) (weights bandwidth : Option (List V)) :
    Except Err (List K × Option (List V) × Option (List V)) :=
  match mode with
  | .off => .ok (data, weights, bandwidth)
  | mode => do
    let f ← fractions mode
    let l ← padLimits limits data
    padAt l.1 l.2 f.1 f.2 data weights bandwidth

/-- zfit/models/kde.py 458-481 `_convert_init_data_weights_size`: the weights of the data and those given separately exclude each
other. -/
def pickWeights (dataWeights weights : Option (List V)) : Except Err (Option (List V)) :=
  match dataWeights, weights with
  | some _, some _ => .error .overdefined
  | some w, none => .ok (some w)
  | none, w => .ok w

/-- zfit/models/kde.py 442-447 `calc_kernel_probs`. -/
def kernelProbs (size : ℕ) (weights : Option (List K)) : List K :=
  match weights with
  | some w => w.map (· / w.sum)
  | none => List.replicate size (1 / size)

/-- `tfd.MixtureSameFamily(Categorical(probs), kernels).prob(x)` (TensorFlow Probability; trusted): the logarithms of the
probabilities are normalised by `log_softmax`, the logarithm of a negative number is NaN (`none`). `k` are the values of the
kernels at `x`. -/
def mixture (probs k : List K) : Option K :=
  if probs.any (· < 0) then none
  else if probs.sum = 0 then none
  else some ((List.zipWith (fun p k => p / probs.sum * k) probs k).sum)

/-! ## Binning -/

/-- `tf.linspace(a, b, n)[j]`, for a grid of `n` points. -/
def linspace (a b : K) (n j : ℕ) : K := if n = 1 then a else a + (b - a) * j / (n - 1)

/-- zfit/util/binning.py 12-25 `generate_1d_grid`: the first and the last point. -/
def gridEnds (data : List K) (absolute relative : K) : Except Err (K × K) := do
  let lo ← minimum data
  let hi ← maximum data
  let out := max (relative * (hi - lo)) absolute
  .ok (lo - out, hi + out)

variable [FloorRing K]

/-- `tf.math.bincount(idx, weights, minlength=n, maxlength=n)[j]`. -/
def bincount (idx : List ℤ) (weights : List K) (j : ℕ) : K := (List.zipWith (fun i w => if i = (j : ℤ) then w else 0) idx weights).sum

/-- The method of binning. -/
inductive Method
  | simple
  | linear
deriving DecidableEq

/-- zfit/util/binning.py 55-107 `_bin_1d_weighted` on the grid of `n` points from `gmin` to `gmax`: the value at grid point `j`.
`tf.concat` of one tensor is this tensor, `tf.roll` by one moves the last entry to the front. -/
def binWeighted (method : Method) (data : List K) (gmin gmax : K) (n : ℕ) (weights : Option (List K)) (j : ℕ) : K :=
  let w := weights.getD (data.map fun _ => 1)
  let w := w.map (· / w.sum)
  let dx := (gmax - gmin) / (n - 1)
  let transformed := data.map fun x => (x - gmin) / dx
  let integral := transformed.map fun t => ⌊t⌋
  let fractional := transformed.map fun t => t - (⌊t⌋ : K)
  let fractional := match method with
    | .linear => fractional
    | .simple => fractional.map fun f => if f > 1 / 2 then f else 0
  let frac := List.zipWith (· * ·) fractional w
  let negFrac := List.zipWith (· - ·) w frac
  let left := if j = 0 then bincount integral frac (n - 1) else bincount integral frac (j - 1)
  left + bincount integral negFrac j

/-- zfit/util/binning.py 37-52 `bin_1d_simple`: without weights `tf.histogram_fixed_width` with as many bins as grid points, values
outside go into the first and the last bin. -/
def binSimple (data : List K) (gmin gmax : K) (n : ℕ) (weights : Option (List K)) (j : ℕ) : K :=
  match weights with
  | some w => binWeighted .simple data gmin gmax n (some w) j
  | none => (data.map fun x => if max 0 (min ((n : ℤ) - 1) ⌊(x - gmin) / (gmax - gmin) * n⌋) = (j : ℤ) then (1 : K) else 0).sum

/-- zfit/util/binning.py 28-34 `bin_1d`. -/
def bin1d (method : Method) (data : List K) (gmin gmax : K) (n : ℕ) (weights : Option (List K)) (j : ℕ) : K :=
  match method with
  | .simple => binSimple data gmin gmax n weights j
  | .linear => binWeighted .linear data gmin gmax n weights j

end Zfit.Kde
