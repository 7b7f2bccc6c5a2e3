import Verif.Common.Py
import Mathlib.Algebra.Order.Field.Rat
import Mathlib.Algebra.Order.Floor.Defs
import Mathlib.Data.Rat.Floor

/-!
# Model of accept-reject sampling and of sampling over several limits

/repo/zfit/core/sample.py and /repo/zfit/core/basemodel.py.  Exact numbers instead of floats: any ordered field, the rational
numbers if nothing else is said, the real numbers for the probabilities in LawProps.lean.  Everything random (uniform numbers, the
binomial and multinomial draws, the shuffle) is a parameter: an arbitrary value that satisfies what the library guarantees about it.
Left out: the experimental `EventSpace` (fixed limits per event, `dynamic_array_shape=False`).
-/

namespace Zfit.Sample

open Zfit

/-- What `sample_and_weights(n_to_produce, ...)` returns (sample.py:313-319): proposals, thresholds in [0, 1), weights, their maximum if it
is known, the number drawn. -/
structure Draw (E : Type) (K : Type := ℚ) where
  sample : List E
  thresholds : List K
  weights : List K
  weightsMax : Option (List K)
  nDrawn : ℕ

/-- The random environment of one call: the proposals and the binomial draws, the `k`-th of each is used by the `k`-th pass of the loop. -/
structure Env (E : Type) (K : Type := ℚ) where
  /-- proposals: `draw k n_to_produce` -/
  draw : ℕ → ℕ → Draw E K
  /-- `Binomial(n_produced, p).sample()`, rounded (sample.py:371-374) -/
  binom : ℕ → ℕ → K → ℕ
  /-- `z.random.shuffle` -/
  shuffle : List (Option E) → List (Option E)

/-- The loop variables (sample.py:449-460). `arr` is the `TensorArray`, an entry that was not written being `none`. -/
structure St (E : Type) (K : Type := ℚ) where
  arr : List (Option E)
  nProduced : ℕ
  nDrawn : ℕ
  eff : K
  scaling : K
  wMax : K
  pMax : K

/-- The arguments. -/
structure Cfg (E : Type) (K : Type := ℚ) where
  prob : E → K
  n : ℕ
  probMax : Option K
  effInit : K
  multipleLimits : Bool
  numericChecks : Bool

variable {E : Type} {K : Type} [Field K] [LinearOrder K] [FloorRing K]

/-- `znp.max` of non-negative numbers. -/
def maxOf (l : List K) : K := l.foldl max 0

/-- `n_min_to_produce` (sample.py:193-198). -/
def Cfg.nMin (c : Cfg E K) : ℤ := if c.probMax.isNone then 3000 else 0

/-- `overestimate_factor_scaling` (sample.py:193-198). -/
def Cfg.overestimate (c : Cfg E K) : K := if c.probMax.isNone then 5 / 4 else 1001 / 1000

/-- The number of proposals to ask for (sample.py:265-297). -/
def nToProduce (c : Cfg E K) (s : St E K) : Except Err ℕ :=
  let eff := max s.eff (1 / 1000000)
  let oneOverEff : ℤ := ⌊1 / eff * (101 / 100) * 100⌋
  let k : ℤ := max (Int.fdiv (((c.n : ℤ) - s.nProduced) * oneOverEff) 100) c.nMin
  if 0 < k then .ok (min k 800000).toNat else .error .invalidArgument

/-- The estimated maxima and the scaling after a batch (sample.py:332-368). -/
def estimate (c : Cfg E K) (s : St E K) (d : Draw E K) : K × K × K :=
  let probs := d.sample.map c.prob
  let wMax := max s.wMax (maxOf d.weights)
  let clipped := d.weights.map (fun w => max w (wMax / 100000))
  let pMax := max s.pMax (maxOf probs)
  let ratio := max (pMax / wMax) (maxOf (List.zipWith (· / ·) probs clipped))
  (if s.scaling < ratio then ratio * c.overestimate else s.scaling, wMax, pMax)

/-- The weights times the scaling, the number of events to keep, the new scaling and maxima (sample.py:329-388). -/
def rescale (c : Cfg E K) (env : Env E K) (k : ℕ) (s : St E K) (d : Draw E K) : List K × ℕ × K × K × K :=
  match c.probMax, d.weightsMax with
  | some pm, some wm => (List.zipWith (fun m w => pm / m * w) wm d.weights, s.nProduced, s.scaling, s.wMax, s.pMax)
  | _, _ =>
    let e := estimate c s d
    (d.weights.map (fun w => e.1 * w),
      if s.scaling = e.1 then s.nProduced else env.binom k s.nProduced (s.scaling / e.1),
      e)

/-- Accept (sample.py:389, 422-424): the probability is above the threshold times the scaled weight. -/
def accepted (c : Cfg E K) (d : Draw E K) (scaled : List K) : List E :=
  ((d.sample.zip (d.thresholds.zip scaled)).filter (fun t => decide (t.2.1 * t.2.2 < c.prob t.1))).map (·.1)

/-- `TensorArray.scatter` of consecutive indices starting with `i` (sample.py:441-444): the array grows if needed. -/
def scatter (arr : List (Option E)) (i : ℕ) (xs : List E) : List (Option E) :=
  (arr ++ List.replicate (i - arr.length) none).take i ++ xs.map some ++ arr.drop (i + xs.length)

/-- `sample_body` (sample.py:250-459), the `k`-th pass. -/
def body (c : Cfg E K) (env : Env E K) (k : ℕ) (s : St E K) : Except Err (St E K) := do
  let m ← nToProduce c s
  let d := env.draw k m
  let r := rescale c env k s d
  let probs := d.sample.map c.prob
  if c.numericChecks && (probs.zip r.1).any (fun t => decide (t.2 < t.1)) then .error .invalidArgument
  else
    let acc := accepted c d r.1
    let nNew := r.2.1 + acc.length
    let drawn := s.nDrawn + d.nDrawn
    return ⟨scatter s.arr r.2.1 acc, nNew, drawn, max (nNew : K) (1 / 2) / max (drawn : K) 1, r.2.2.1, r.2.2.2.1, r.2.2.2.2⟩

/-- The state before the loop (sample.py:217-227, 461-478). -/
def start (c : Cfg E K) : St E K := ⟨List.replicate c.n none, 0, 0, c.effInit, 0, 0, 0⟩

/-- `tf.while_loop` (sample.py:476-487) for at most `fuel` passes; `none` if it has not ended by then. -/
def loop (c : Cfg E K) (env : Env E K) : ℕ → ℕ → St E K → Option (Except Err (St E K))
  | 0, _, s => if c.n ≤ s.nProduced then some (.ok s) else none
  | fuel + 1, k, s =>
    if c.n ≤ s.nProduced then some (.ok s)
    else match body c env k s with
      | .error e => some (.error e)
      | .ok s' => loop c env fuel (k + 1) s'

/-- `sample_array.stack()` and the cut (sample.py:488-495). Reading an entry that was never written is an error. -/
def finish (c : Cfg E K) (env : Env E K) (s : St E K) : Except Err (List E) :=
  let stacked := if c.multipleLimits then env.shuffle s.arr else s.arr
  (stacked.take c.n).mapM (fun (o : Option E) => match o with
    | some e => .ok e
    | none => .error .invalidArgument)

/-- `accept_reject_sample` (sample.py:143-501). -/
def acceptReject (c : Cfg E K) (env : Env E K) (fuel : ℕ) : Option (Except Err (List E)) :=
  match loop c env fuel 0 (start c) with
  | none => none
  | some (.error e) => some (.error e)
  | some (.ok s) => some (finish c env s)

/-! ## Several limits -/

/-- A rectangular piece of the limits: lower and upper bounds per observable. -/
structure Piece (K : Type := ℚ) where
  lower : List K
  upper : List K

/-- The volume of a piece. -/
def Piece.volume (p : Piece K) : K := (List.zipWith (fun u l => u - l) p.upper p.lower).prod

/-- The numbers of proposals in the pieces (sample.py:36-48): the last piece gets what is missing. -/
def split (n : ℕ) (pieces : List (Piece K)) : List ℤ :=
  let tot := (pieces.map Piece.volume).sum
  go tot 0 pieces
where
  /-- The loop, with the number produced so far. -/
  go (tot : K) (produced : ℤ) : List (Piece K) → List ℤ
    | [] => []
    | [_] => [n - produced]
    | p :: q :: ps =>
      let k : ℤ := ⌊(n : K) * (p.volume / tot)⌋
      k :: go tot (produced + k) (q :: ps)

/-- One row scaled into a piece (sample.py:56). -/
def toPiece (p : Piece K) (u : List K) : List K :=
  List.zipWith (fun x lu => x * (lu.2 - lu.1) + lu.1) u (p.lower.zip p.upper)

/-- `UniformSampleAndWeights.__call__` (sample.py:23-66). `uniform i` is the matrix of uniform numbers for the `i`-th piece, the last
column being the threshold; only as many rows are used as asked for. -/
def uniformSample (n : ℕ) (pieces : List (Piece K)) (uniform : ℕ → ℕ → List K × K) : List (List K) × List K :=
  let blocks := (pieces.zip (split n pieces)).zipIdx.map
    (fun t => (List.range t.1.2.toNat).map (fun j => (toPiece t.1.1 (uniform t.2 j).1, (uniform t.2 j).2)))
  (blocks.flatten.map (·.1), blocks.flatten.map (·.2))

/-- `_limits_sample` (basemodel.py:1210-1234): first all limits at once; if that is not supported, the number of events is split by a
multinomial draw `counts` according to the analytic integrals and each piece is sampled on its own. -/
def limitsSample {L : Type} (callAll : ℕ → Except Err (List E)) (callOne : L → ℕ → Except Err (List E))
    (integrals : Except Err (List K)) (counts : List K → List ℕ) (n : ℕ) (limits : List L) : Except Err (List E) :=
  match callAll n with
  | .error .multipleLimitsNotImplemented =>
    match integrals with
    | .error .analyticNotImplemented => .error .multipleLimitsNotImplemented
    | .error e => .error e
    | .ok is => do
      let samples ← (limits.zip (counts (is.map (· / is.sum)))).mapM (fun t => callOne t.1 t.2)
      return samples.flatten
  | r => r

end Zfit.Sample
