import Verif.Kde.Model
import Mathlib.Data.Nat.Log
import Mathlib.Algebra.Order.Floor.Ring

/-! Model of zfit/models/kde.py (`KDE1DimFFT`) and zfit/util/convolution.py.

Numbers are exact elements of an ordered field.  The kernel is a function `ker h x`, the density `prob(x)` of
`kernel(loc=0, scale=h)`, arbitrary in the theorems.  `tf.signal.rfft`, a product and `tf.signal.irfft` are a circular
convolution (TensorFlow; trusted). -/

namespace Zfit.Kde

open Zfit

variable {K : Type} [Field K] [LinearOrder K] [FloorRing K]

/-- zfit/models/kde.py 1576-1580: without `support` the volume of the space times 1.2 (the volume is never `None`, so that
`find_practical_support_bandwidth` is not used). -/
def chosenSupport (support : Option K) (volume : K) : K := support.getD (volume * (6 / 5))

/-- zfit/util/convolution.py 41-56: the number of grid points that the kernel reaches to each side. -/
def kernelReach (support h dx : K) (n : ℕ) : ℕ := (min ⌊support * h / dx⌋ (n : ℤ)).toNat

/-- zfit/util/convolution.py 58-62: the kernel at the points `0, dx, ..., L dx`, mirrored to the left. -/
def kernelWeights (ker : K → K) (dx : K) (L : ℕ) : List K :=
  let half := (List.range (L + 1)).map fun l => ker (linspace 0 (dx * L) (L + 1) l)
  half.reverse.dropLast ++ half

/-- `tf.nn.conv1d(c, k, 1, "SAME")` (convolution.py 67-74): for a kernel of odd length zeros are added on both sides. -/
def conv1dSame (c k : List K) : List K :=
  (List.range c.length).map fun i => ((List.range k.length).map fun t =>
    (if (k.length - 1) / 2 ≤ i + t then c.getD (i + t - (k.length - 1) / 2) 0 else 0) * k.getD t 0).sum

/-- zfit/util/convolution.py 76-107: every `fft_method` other than "conv1d".  Negative paddings and factors of different
lengths are errors of TensorFlow. -/
def convSignal (c k : List K) : Except Err (List K) :=
  let n := c.length
  let P := 2 ^ Nat.clog 2 (3 * n - 1)
  if n = 0 ∨ P < 2 * n + 1 then .error .invalidArgument
  else
    let c' := List.replicate (n - 1) 0 ++ c ++ List.replicate (P - 2 * n - 1) 0
    let k' := k ++ List.replicate (P - 2 * n - 1) 0
    if c'.length / 2 ≠ k'.length / 2 then .error .invalidArgument
    else
      let M := c'.length / 2 * 2
      let result := (List.range M).map fun m => ((List.range M).map fun j => c'.getD j 0 * k'.getD ((m + M - j) % M) 0).sum
      .ok ((result.take (3 * n - 1)).drop (2 * n - 1))

/-- The argument `fft_method`. -/
inductive FftMethod
  | conv1d
  | other
  deriving DecidableEq

/-- What is kept of a `KDE1DimFFT`: the ends of the grid and the values on it. -/
structure Fft (K : Type) where
  gmin : K
  gmax : K
  values : List K
  deriving DecidableEq

/-- zfit/util/convolution.py 39-107 `convolve_1d_data_with_kernel`. -/
def convolve (ker : K → K → K) (h : K) (c : List K) (gmin gmax : K) (support : K) (m : FftMethod) : Except Err (List K) :=
  let n := c.length
  let dx := (gmax - gmin) / (n - 1)
  let k := kernelWeights (ker h) dx (kernelReach support h dx n)
  match m with
  | .conv1d => .ok (conv1dSame c k)
  | .other => convSignal c k

/-- zfit/models/kde.py 1514-1593 `KDE1DimFFT.__init__`, with a number as bandwidth and without padding. -/
def fftKde (ker : K → K → K) (data : List K) (weights : Option (List K)) (h : K) (volume : K) (support : Option K)
    (numGrid : ℕ) (method : Method) (m : FftMethod) : Except Err (Fft K) :=
  match gridEnds data 0 (1 / 20) with
  | .error e => .error e
  | .ok (gmin, gmax) =>
    let n := min data.length numGrid
    let c := (List.range n).map (bin1d method data gmin gmax n weights)
    match convolve ker h c gmin gmax (chosenSupport support volume) m with
    | .error e => .error e
    | .ok v => .ok ⟨gmin, gmax, v⟩

/-- `tfp.math.interp_regular_1d_grid` (models/kde.py 1595-1602), with the default for points beyond the grid: the value at
its end. -/
def Fft.pdf (f : Fft K) (x : K) : K :=
  let n := f.values.length
  if x ≤ f.gmin then f.values.getD 0 0
  else if f.gmax ≤ x then f.values.getD (n - 1) 0
  else
    let t := (x - f.gmin) / ((f.gmax - f.gmin) / (n - 1))
    let k := ⌊t⌋.toNat
    (1 - (t - k)) * f.values.getD k 0 + (t - k) * f.values.getD (k + 1) 0

end Zfit.Kde
