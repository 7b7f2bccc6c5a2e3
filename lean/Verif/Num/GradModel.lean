import Verif.Num.AutoModel

/-!
# Model of the gradient of a Monte Carlo integral

/repo/zfit/core/integration.py: `mc_integrate` (179-399) without an event, `normalization_nograd` (404-454) and
`normalization_chunked` (458-497) with its custom gradient.

TensorFlow differentiates backwards: every number that was computed remembers how the derivative of the final result with
respect to this number (`dy`) is handed on to the parameter.  `Rev` is such a number, for one parameter; the rules of the
elementary operations are those of TensorFlow.  What the integrand hands on is any function; real numbers instead of floats.
What is not differentiated (the estimated error, the number of points) is as in `Verif.Num.AutoModel`.
-/

namespace Zfit.AutoGrad

open Zfit.Num Zfit.Auto

/-- A number that was computed: its value, and what the parameter gets if the derivative of the final result with respect
to this number is `dy`. -/
structure Rev where
  value : ℝ
  back : ℝ → ℝ

/-- A constant (`tf.constant(0)`, `znp.array(0.0)`; integration.py:359, 443). -/
noncomputable def Rev.const (c : ℝ) : Rev := ⟨c, fun _ => 0⟩

/-- TensorFlow's rule for a sum. -/
noncomputable def Rev.add (a b : Rev) : Rev := ⟨a.value + b.value, fun dy => a.back dy + b.back dy⟩

/-- TensorFlow's rule for a multiple by a constant. -/
noncomputable def Rev.scale (c : ℝ) (a : Rev) : Rev := ⟨c * a.value, fun dy => a.back (dy * c)⟩

/-- TensorFlow's rule for a function with one argument: the final result is `f` of the number, `df` its derivative there. -/
noncomputable def Rev.apply (f : ℝ → ℝ) (df : ℝ) (a : Rev) : Rev := ⟨f a.value, fun dy => a.back (dy * df)⟩

/-- TensorFlow's rule for `reduce_sum`. -/
noncomputable def Rev.sum (l : List Rev) : Rev := l.foldr Rev.add (Rev.const 0)

/-- `znp.mean(y)` of the points `[start, start + n)`. -/
noncomputable def batchMeanR (y : ℕ → Rev) (start n : ℕ) : Rev := (Rev.sum ((List.range' start n).map y)).scale (1 / n)

/-- The variables of the loop (integration.py:358-364); only the average depends on the parameter differentiably. -/
structure LoopR where
  avg : Rev
  error : ℝ
  std : ℝ
  ntot : ℕ
  i : ℕ

/-- The values of the variables. -/
def LoopR.plain (l : LoopR) : Loop := ⟨l.avg.value, l.error, l.std, l.ntot, l.i⟩

/-- The initial values (integration.py:358-364). -/
noncomputable def LoopR.start : LoopR := ⟨Rev.const 0, 9999, 0, 0, 0⟩

/-- `body_integrate` (integration.py:305-356); `m` has the values of the integrand, `y` the numbers that remember. -/
noncomputable def bodyR (m : Mc) (y : ℕ → Rev) (l : LoopR) : LoopR :=
  let ntot := l.ntot + m.nSamples
  let i : ℝ := l.i
  let avg := (l.avg.scale (i / (i + 1))).add ((batchMeanR y l.ntot m.nSamples).scale (1 / (i + 1)))
  let std := l.std / (i + 1) * i + m.spread l.ntot ntot / (i + 1)
  ⟨avg, m.estimate std ntot, std, ntot, l.i + 1⟩

open Classical in
/-- `tf.while_loop` (integration.py:368-370). -/
noncomputable def loopR (m : Mc) (y : ℕ → Rev) : ℕ → LoopR → Option LoopR
  | 0, _ => none
  | fuel + 1, l => if m.goesOn l.plain then loopR m y fuel (bodyR m y l) else some l

/-- One turn in `normalization_nograd` (integration.py:411-438): `mean + err_weight * (batch_mean - mean)`. -/
noncomputable def chunkBodyR (y : ℕ → Rev) (batchSize : ℕ) (mean : Rev) (batchNum : ℕ) : Rev :=
  mean.add (((batchMeanR y (batchNum * batchSize) batchSize).add (mean.scale (-1))).scale (1 / ((batchNum : ℝ) + 1)))

/-- `normalization_nograd` (integration.py:404-454). -/
noncomputable def nograd (y : ℕ → Rev) (batchSize numBatches : ℕ) : Rev :=
  (List.range numBatches).foldl (chunkBodyR y batchSize) (Rev.const 0)

/-- `normalization_chunked` (integration.py:458-497): the custom gradient `grad_fn` (476-492) computes the value again and
returns `tape.gradient(value, variables)`, whatever `dy` is. -/
noncomputable def chunkedR (y : ℕ → Rev) (batchSize numBatches : ℕ) : Rev :=
  ⟨(nograd y batchSize numBatches).value, fun _dy => (nograd y batchSize numBatches).back 1⟩

/-- One piece in `mc_integrate` (integration.py:273-396), with the number of points. -/
noncomputable def mcPieceR (w : World) (o : Options) (vectorizable : Bool) (F : List ℝ → Rev) (b : Box) : Except Fail (Rev × ℕ) :=
  let n := b.length
  let nSamples := o.drawsPerDim * n
  let y := fun j => F (stretchTo b (w.halton n j))
  let mc : Mc := ⟨fun j => (y j).value, fun i j => w.deviation ((List.range' i (j - i)).map fun j => (y j).value), w.estimate n,
    o.tol, o.maxDraws, nSamples⟩
  if w.chunksize < nSamples then
    let c := chunks nSamples w.chunksize
    .ok ((chunkedR (fun j => F (stretchBack b (w.halton n j))) c.1 c.2).scale b.area, c.2 * c.1)
  else if vectorizable then
    .ok ((bodyR mc y LoopR.start).avg.scale b.area, (bodyR mc y LoopR.start).ntot)
  else
    match loopR mc y (o.maxDraws + 1) LoopR.start with
    | none => .error .hangs
    | some l => .ok (l.avg.scale b.area, l.ntot)

/-- `mc_integrate` (integration.py:272-398): the pieces and their sum. -/
noncomputable def mcIntegrateR (w : World) (o : Options) (vectorizable : Bool) (F : List ℝ → Rev) (limits : List Box) :
    Except Fail (Rev × ℕ) :=
  (each (mcPieceR w o vectorizable F) limits).map fun l => (Rev.sum (l.map (·.1)), (l.map (·.2)).sum)

end Zfit.AutoGrad
