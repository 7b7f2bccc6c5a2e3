import Verif.Sample.Model
import Mathlib.Probability.ProductMeasure
import Mathlib.MeasureTheory.Measure.Lebesgue.Basic
import Mathlib.MeasureTheory.Measure.WithDensity

/-!
# Specification vocabulary for the law of sampled events

Real numbers.  `ω (k, j)` is the `j`-th proposal of the `k`-th pass together with its threshold.  All of them are independent; a proposal has
the density `w` with respect to some measure `μ` (the default: density 1 with respect to the uniform distribution on the limits), a
threshold is uniform in [0, 1).
-/

namespace Zfit.Sample

open Zfit MeasureTheory ENNReal

variable {E : Type} {K : Type} [Field K] [LinearOrder K] [FloorRing K]

/-- A `sample_and_weights` function (what sample.py:313-319 calls) that hands out the proposals `ω` with the weights `w`; `wmax` is the
maximum of the weights if it is known.  `UniformSampleAndWeights` (sample.py:23-66) for one piece is of this form, with all weights 1 and
`wmax = some 1`. -/
def streamEnv (w : E → K) (wmax : Option K) (binom : ℕ → ℕ → K → ℕ) (shuffle : List (Option E) → List (Option E)) (ω : ℕ × ℕ → E × K) :
    Env E K where
  draw k m :=
    ⟨(List.range m).map (fun j => (ω (k, j)).1), (List.range m).map (fun j => (ω (k, j)).2), (List.range m).map (fun j => w (ω (k, j)).1),
      wmax.map (List.replicate m), m⟩
  binom := binom
  shuffle := shuffle

/-- `accept_reject_sample` from the `k`-th pass on, with the loop variables `s` (sample.py:480-495); from the beginning it is
`acceptReject`. -/
def resume (c : Cfg E K) (env : Env E K) (fuel k : ℕ) (s : St E K) : Option (Except Err (List E)) :=
  match loop c env fuel k s with
  | none => none
  | some (.error e) => some (.error e)
  | some (.ok s') => some (finish c env s')

/-- The law of one proposal with its threshold: density `w` with respect to `μ`, and uniform in [0, 1). -/
noncomputable def proposalLaw [MeasurableSpace E] (μ : Measure E) (w : E → ℝ) : Measure (E × ℝ) :=
  (μ.withDensity (fun x => ENNReal.ofReal (w x))).prod (volume.restrict (Set.Ico 0 1))

/-- The law of the randomness of a call: everything independent. -/
noncomputable def randomness [MeasurableSpace E] (μ : Measure E) (w : E → ℝ) : Measure (ℕ × ℕ → E × ℝ) :=
  Measure.infinitePi (fun _ => proposalLaw μ w)

/-- The share of `A` in the integral of the pdf: what the probability of `A` has to be. -/
noncomputable def share [MeasurableSpace E] (μ : Measure E) (p : E → ℝ) (A : Set E) : ℝ≥0∞ :=
  (∫⁻ x in A, ENNReal.ofReal (p x) ∂μ) / ∫⁻ x, ENNReal.ofReal (p x) ∂μ

end Zfit.Sample
