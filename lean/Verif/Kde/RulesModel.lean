import Verif.Common.Py
import Mathlib.Algebra.Order.Floor.Ring
import Mathlib.Data.Rat.Floor
import Mathlib.Data.List.Sort
import Mathlib.Analysis.SpecialFunctions.Pow.Real

/-! Model of the bandwidth rules of zfit/models/kde.py and of `weighted_quantile` of zfit/z/math.py.

Numbers are exact (quantiles in an ordered field, the rest in the real numbers). `none` stands for an exception. Weights are
positive: `searchsorted` needs an ordered list. -/

namespace Zfit.Kde

section quantiles

variable {K : Type} [Field K] [LinearOrder K]

/-- `tf.round`: to the nearest integer, halves to the even one. -/
def roundEven (r : ℚ) : ℤ :=
  if r - ⌊r⌋ < 1 / 2 then ⌊r⌋
  else if 1 / 2 < r - ⌊r⌋ then ⌊r⌋ + 1
  else if ⌊r⌋ % 2 = 0 then ⌊r⌋ else ⌊r⌋ + 1

/-- `tfp.stats.percentile(x, q)` with its default interpolation `nearest` (TensorFlow Probability; trusted): the list is sorted
from the largest down and the element at the rounded index `(n - 1) * (1 - q / 100)` is taken. -/
def percentile (q : ℚ) (x : List K) : Option K :=
  (x.insertionSort (· ≥ ·))[(roundEven (((x.length : ℚ) - 1) * (1 - q / 100))).toNat]?

/-- zfit/z/math.py 391: `cumsum(weights) - 0.5 * weights`, with the sum `acc` of the weights before. -/
def cumMinusHalf (acc : K) : List K → List K
  | [] => []
  | w :: ws => (acc + w - 1 / 2 * w) :: cumMinusHalf (acc + w) ws

/-- zfit/z/math.py 391-393 `weighted_quantiles`. -/
def positions (ws : List K) : List K := (cumMinusHalf 0 ws).map (· / ws.sum)

/-- zfit/z/math.py 373-407 `weighted_quantile` with weights and `side="middle"`, for one quantile; the events are pairs of value
and weight. `argsort` is stable. `searchsorted` on an ordered list counts the elements below (left) or not above (right).
An index behind the end makes `tf.gather` raise. -/
def weightedQuantile (q : K) (events : List (K × K)) : Option K :=
  let sorted := events.insertionSort (fun a b => a.1 ≤ b.1)
  let pos := positions (sorted.map (·.2))
  match sorted[(pos.filter (· < q)).length]?, sorted[(pos.filter (· ≤ q)).length]? with
  | some a, some b => some ((a.1 + b.1) / 2)
  | _, _ => none

/-- zfit/models/kde.py 436 and 439: the range between the quartiles. -/
def iqr (data : List K) (weights : Option (List K)) : Option K :=
  match weights with
  | none => do return (← percentile 75 data) - (← percentile 25 data)
  | some ws => do return (← weightedQuantile (3 / 4) (data.zip ws)) - (← weightedQuantile (1 / 4) (data.zip ws))

end quantiles

/-- `znp.std`, `tf.nn.weighted_moments` (zfit/models/kde.py 435, 439): the root of the mean squared distance from the mean,
weighted; without weights each event counts one. -/
noncomputable def stdDev (data : List ℝ) (weights : Option (List ℝ)) : ℝ :=
  let ws := weights.getD (data.map fun _ => 1)
  let mean := (List.zipWith (· * ·) ws data).sum / ws.sum
  Real.sqrt ((List.zipWith (fun w x => w * (x - mean) ^ 2) ws data).sum / ws.sum)

/-- zfit/models/kde.py 431-439 `min_std_or_iqr`. -/
noncomputable def minStdOrIqr (data : List ℝ) (weights : Option (List ℝ)) : Option ℝ :=
  (iqr data weights).map fun r => min (stdDev data weights) r

/-- zfit/models/kde.py 42-77 `bandwidth_rule_of_thumb`. -/
noncomputable def ruleOfThumb (factor : ℝ) (data : List ℝ) (weights : Option (List ℝ)) : Option ℝ :=
  (minStdOrIqr data weights).map fun m => m * (data.length : ℝ) ^ (-1 / 5 : ℝ) * factor

/-- zfit/models/kde.py 80-105. -/
noncomputable def silverman : List ℝ → Option (List ℝ) → Option ℝ := ruleOfThumb (9 / 10)

/-- zfit/models/kde.py 109-134. -/
noncomputable def scott : List ℝ → Option (List ℝ) → Option ℝ := ruleOfThumb (1059 / 1000)

/-- zfit/z/math.py 358-364 `reduce_geometric_mean`: the exponential of the weighted mean of the logarithms. -/
noncomputable def geometricMean (p : List ℝ) (weights : Option (List ℝ)) : ℝ :=
  let ws := weights.getD (p.map fun _ => 1)
  Real.exp ((List.zipWith (fun w p => w * Real.log p) ws p).sum / ws.sum)

/-- zfit/models/kde.py 225, 350: the number of events is the sum of the weights. -/
noncomputable def eventCount (data : List ℝ) (weights : Option (List ℝ)) : ℝ :=
  match weights with
  | some ws => ws.sum
  | none => data.length

/-- zfit/models/kde.py 168-226 `bandwidth_adaptive_geomV1`. -/
noncomputable def adaptiveGeom (data : List ℝ) (func : ℝ → ℝ) (weights : Option (List ℝ)) : Option (List ℝ) :=
  (minStdOrIqr data weights).map fun m =>
    let probs := data.map func
    probs.map fun p => 1 / Real.sqrt (p / geometricMean probs weights) * eventCount data weights ^ (-1 / 5 : ℝ) * m

/-- zfit/models/kde.py 232-290 `bandwidth_adaptive_zfitV1`. -/
noncomputable def adaptiveZfit (data : List ℝ) (func : ℝ → ℝ) (weights : Option (List ℝ)) : Option (List ℝ) :=
  (scott data weights).map fun s =>
    let probs := data.map func
    probs.map fun p => s / (Real.sqrt p / ((probs.map Real.sqrt).sum / probs.length))

/-- zfit/models/kde.py 293-353 `bandwidth_adaptive_stdV1`. -/
noncomputable def adaptiveStd (data : List ℝ) (func : ℝ → ℝ) (weights : Option (List ℝ)) : Option (List ℝ) :=
  (minStdOrIqr data weights).map fun m =>
    (data.map func).map fun p => Real.sqrt (m / p) * (eventCount data weights ^ (-1 / 5 : ℝ) * (1059 / 1000))

end Zfit.Kde
