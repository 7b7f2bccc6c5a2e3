import Verif.Common.Py
import Mathlib.Data.Real.Basic

/-!
# Model of Monte Carlo integration

/repo/zfit/core/integration.py: `mc_integrate` (179-399), `normalization_nograd` (404-454).

Real numbers instead of floats.  The points of a batch are the elements `[start, end)` of a fixed sequence (the Halton
sequence, stretched to the limits), so a batch is determined by its indices; `y j` is the value of the function at point
`j`.  The estimate of the error (348-353) is any function of the running spread and the number of points; the spread of a
batch (`znp.std`) any function of its values.  In `normalization_nograd` the names of the two limits are exchanged (406), so
that the points run through the interval from the other side; `y` is the function at these points.
-/

namespace Zfit.Num

open Zfit

/-- The mean of the values with the indices `[start, start + n)` (`znp.mean(y)`). -/
noncomputable def batchMean (y : ℕ → ℝ) (start n : ℕ) : ℝ := ((List.range' start n).map y).sum / n

/-- The variables of the loop (integration.py:356-362). -/
structure Loop where
  avg : ℝ
  error : ℝ
  std : ℝ
  ntot : ℕ
  i : ℕ

/-- What is integrated and how. -/
structure Mc where
  /-- The function at the points of the sequence. -/
  y : ℕ → ℝ
  /-- `znp.std` of a batch, by its indices. -/
  spread : ℕ → ℕ → ℝ
  /-- The estimated error from the running spread and the number of points (integration.py:351-353). -/
  estimate : ℝ → ℕ → ℝ
  tol : ℝ
  maxDraws : ℕ
  /-- `n_samples = draws_per_dim * n_axes` (280). -/
  nSamples : ℕ

/-- The initial values (integration.py:356-362). -/
noncomputable def Loop.start : Loop := ⟨0, 9999, 0, 0, 0⟩

/-- `body_integrate` (integration.py:306-354). -/
noncomputable def Mc.body (m : Mc) (l : Loop) : Loop :=
  let ntot := l.ntot + m.nSamples
  let i : ℝ := l.i
  let avg := l.avg / (i + 1) * i + batchMean m.y l.ntot m.nSamples / (i + 1)
  let std := l.std / (i + 1) * i + m.spread l.ntot ntot / (i + 1)
  ⟨avg, m.estimate std ntot, std, ntot, l.i + 1⟩

/-- `cond` (integration.py:300-302). -/
def Mc.goesOn (m : Mc) (l : Loop) : Prop := l.error > m.tol ∧ l.ntot < m.maxDraws

open Classical in
/-- `tf.while_loop` (integration.py:366-368), with fuel: `none` if the fuel does not suffice. -/
noncomputable def Mc.loop (m : Mc) : ℕ → Loop → Option Loop
  | 0, _ => none
  | fuel + 1, l => if m.goesOn l then m.loop fuel (m.body l) else some l

/-- The average: one batch if `vectorizable`, else the loop (integration.py:363-368). -/
noncomputable def Mc.average (m : Mc) (vectorizable : Bool) (fuel : ℕ) : Option ℝ :=
  if vectorizable then some (m.body Loop.start).avg else (m.loop fuel Loop.start).map (·.avg)

/-- One turn in `normalization_nograd` (integration.py:410-438): `mean + (batch_mean - mean) / (batch_num + 1)`. -/
noncomputable def chunkBody (y : ℕ → ℝ) (batchSize : ℕ) (mean : ℝ) (batchNum : ℕ) : ℝ :=
  mean + 1 / ((batchNum : ℝ) + 1) * (batchMean y (batchNum * batchSize) batchSize - mean)

/-- `normalization_nograd` (integration.py:440-454). -/
noncomputable def chunked (y : ℕ → ℝ) (batchSize numBatches : ℕ) : ℝ :=
  (List.range numBatches).foldl (chunkBody y batchSize) 0

/-- The numbers of `mc_integrate` when `n_samples` exceeds `chunksize` (integration.py:282-286): `(chunksize, n_chunks)`. -/
def chunks (nSamples chunksize : ℕ) : ℕ × ℕ :=
  let nChunks := (nSamples + chunksize - 1) / chunksize
  ((nSamples + nChunks - 1) / nChunks, nChunks)

end Zfit.Num
