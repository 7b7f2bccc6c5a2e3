import Verif.Num.McModel
import Verif.Num.SimpsonModel

/-!
# Model of the choice of a numeric integrator and of the options it is given

/repo/zfit/core/basemodel.py: `_auto_numeric_integrate` (1001-1040), `_fallback_partial_numeric_integrate` (997-999);
/repo/zfit/core/integration.py: `auto_integrate` (25-72), `mc_integrate` (179-399) with its branches for chunks, for
vectorisable integrals and for partial integrals.

Real numbers instead of floats.  The Halton sequence, the deviation of a batch and the estimate of the error are any
functions (`World`).  Limits are rectangular and finite: a piece has a lower and an upper bound for each observable.  The
function takes the values of the observables; for a partial integral a function is given for every event (how the values
of the event and the drawn values are put together is modelled in `Part`).  `method` is always `"AUTO"`: no caller sets
it.  A loop that does not end is the outcome `hangs`.
-/

namespace Zfit.Auto

open Zfit.Num

/-- How a numeric integration can fail. -/
inductive Fail where
  /-- The assertions of `simpson` (integration.py:133-136). -/
  | invalidArgument
  /-- `mc_integrate` with an event and several pieces (integration.py:236-238). -/
  | severalPieces
  /-- The loop does not end. -/
  | hangs
deriving DecidableEq

/-- The part of the limits without a gap: lower and upper bound of each observable. -/
abbrev Box := List (ℝ × ℝ)

/-- The volume (`space.area()`, integration.py:395). -/
noncomputable def Box.area (b : Box) : ℝ := (b.map fun p => p.2 - p.1).prod

/-- What the integration takes from outside. -/
structure World where
  /-- `tfp.mcmc.sample_halton_sequence(dim, sequence_indices=[j])`, without randomisation (integration.py:325-331). -/
  halton : ℕ → ℕ → List ℝ
  /-- `znp.std` of the values of a batch (integration.py:346). -/
  deviation : List ℝ → ℝ
  /-- The estimated error from the number of observables, the running deviation and the number of points
  (integration.py:354-356). -/
  estimate : ℕ → ℝ → ℕ → ℝ
  /-- `zfit.run.chunksize` (integration.py:283). -/
  chunksize : ℕ
  /-- `zfit.run.get_graph_mode() is not False` (integration.py:247). -/
  graphMode : Bool

/-- The options of a model (integration.py:763-771, `Integration`). -/
structure Options where
  /-- `mc_sampler`: from the number of observables and the index a point of the unit cube. -/
  sampler : ℕ → ℕ → List ℝ
  drawsPerDim : ℕ
  maxDraws : ℕ
  tol : ℝ
  drawsSimpson : ℕ

/-- A point of the unit cube stretched to the limits (integration.py:332). -/
noncomputable def stretchTo (b : Box) (u : List ℝ) : List ℝ := List.zipWith (fun p t => t * (p.2 - p.1) + p.1) b u

/-- The same with the two limits exchanged, as in `normalization_nograd` (integration.py:406, 426). -/
noncomputable def stretchBack (b : Box) (u : List ℝ) : List ℝ := List.zipWith (fun p t => t * (p.1 - p.2) + p.2) b u

/-- One piece in `mc_integrate` (integration.py:273-396): the integral and the number of points at which the function is
evaluated.  The sampler is not looked at (`noqa: ARG001`, 191). -/
noncomputable def mcPiece (w : World) (o : Options) (vectorizable : Bool) (F : List ℝ → ℝ) (b : Box) : Except Fail (ℝ × ℕ) :=
  let n := b.length
  let nSamples := o.drawsPerDim * n
  let y := fun j => F (stretchTo b (w.halton n j))
  let mc : Mc := ⟨y, fun i j => w.deviation ((List.range' i (j - i)).map y), w.estimate n, o.tol, o.maxDraws, nSamples⟩
  if w.chunksize < nSamples then
    let c := chunks nSamples w.chunksize
    .ok (chunked (fun j => F (stretchBack b (w.halton n j))) c.1 c.2 * b.area, c.2 * c.1)
  else if vectorizable then
    .ok ((mc.body Loop.start).avg * b.area, (mc.body Loop.start).ntot)
  else
    match mc.loop (o.maxDraws + 1) Loop.start with
    | none => .error .hangs
    | some l => .ok (l.avg * b.area, l.ntot)

/-- The values and numbers of the pieces summed (integration.py:397; `znp.sum`, 175). -/
noncomputable def total (l : List (ℝ × ℕ)) : ℝ × ℕ := ((l.map (·.1)).sum, (l.map (·.2)).sum)

/-- The results of all pieces, or the first failure. -/
def each {α β : Type} (f : α → Except Fail β) : List α → Except Fail (List β)
  | [] => .ok []
  | a :: l => match f a with
    | .error e => .error e
    | .ok r => match each f l with
      | .error e => .error e
      | .ok rs => .ok (r :: rs)

/-- One piece of one observable in `simpson_integrate` (integration.py:150-175). -/
noncomputable def simpsonPiece (n : ℕ) (F : List ℝ → ℝ) (b : Box) : Except Fail (ℝ × ℕ) :=
  match simpson (fun x => F [x]) (b.headD (0, 0)).1 (b.headD (0, 0)).2 (sanitize n) with
  | .error _ => .error .invalidArgument
  | .ok v => .ok (v, sanitize n)

/-- `auto_integrate` without an event (integration.py:41-72): Simpson's rule for one observable, else Monte Carlo. -/
noncomputable def autoIntegrate (w : World) (o : Options) (vectorizable : Bool) (nAxes : ℕ) (F : List ℝ → ℝ)
    (limits : List Box) : Except Fail (ℝ × ℕ) :=
  if nAxes = 1 then (each (simpsonPiece o.drawsSimpson F) limits).map total
  else (each (mcPiece w o vectorizable F) limits).map total

/-- `_auto_numeric_integrate` without an event (basemodel.py:1001-1040): fewer points and one batch only for the integrals
over bins (`options = {"type": "bins"}`). -/
noncomputable def numericIntegrate (w : World) (o : Options) (bins : Bool) (nAxes : ℕ) (F : List ℝ → ℝ) (limits : List Box) :
    Except Fail (ℝ × ℕ) :=
  let o' := if bins then { o with drawsPerDim := max (o.drawsPerDim / 30) 10, drawsSimpson := max (o.drawsSimpson / 30) 10 }
    else o
  autoIntegrate w o' bins nAxes F limits

/-- The defaults of `mc_integrate` (integration.py:185-187, 191). -/
noncomputable def mcDefaults (w : World) : Options := ⟨w.halton, 40000, 800000, 1 / 1000000, 0⟩

/-- `_auto_numeric_integrate` with events (basemodel.py:998-999, integration.py:235-269): `mc_integrate` calls itself for
each event and hands on the function, the limits and the event, nothing else.  For each event the integral and the number of
points at which the function is evaluated. -/
noncomputable def partialNumeric {E : Type} (w : World) (_o : Options) (F : E → List ℝ → ℝ) (limits : List Box) (events : List E) :
    Except Fail (List (ℝ × ℕ)) :=
  match limits with
  | [b] => each (fun e => mcPiece w (mcDefaults w) w.graphMode (F e) b) events
  | _ => .error .severalPieces

end Zfit.Auto
