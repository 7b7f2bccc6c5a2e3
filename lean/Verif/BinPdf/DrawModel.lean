import Verif.BinPdf.AtModel
import Mathlib.Probability.Distributions.Poisson.Basic
import Mathlib.Probability.ProbabilityMassFunction.Constructions
import Mathlib.MeasureTheory.Constructions.Pi

/-!
# Model of sampling from a binned PDF

`BaseBinnedPDF.sample`, `_call_sample`, `_fallback_sample`, /repo/zfit/core/binnedpdf.py:930-981, `_check_convert_limits` (276-283);
`counts_multinomial`, /repo/zfit/z/random.py:64-115; the comparison of spaces, /repo/zfit/core/space.py:2539-2578.

What is drawn is modelled by its distribution (`PMF`).  `Θ` are the values of all parameters.  The `_sample` hook of a subclass has no
effect (C37); limits that are not binned get the binning of the PDF (281-282) and are not modelled, nor are unions of limits.
-/

namespace Zfit.BinPdf

open Zfit Zfit.Bin ProbabilityTheory
open scoped NNReal ENNReal

/-- The bins of an array of the given shape. -/
abbrev Cell (shape : List ℕ) := (i : Fin shape.length) → Fin (shape.get i)

/-- The index of a bin. -/
def Cell.idx {shape : List ℕ} (c : Cell shape) : List ℕ := List.ofFn fun i => (c i).val

/-- The Poisson distribution (external: `znp.random.poisson`). -/
noncomputable def poisson (r : ℝ≥0) : PMF ℕ := (poissonMeasure r).toPMF

/-- TFP's multinomial distribution (external): the number of times each class is drawn in `n` independent draws. -/
noncomputable def draws {ι : Type} [DecidableEq ι] (p : PMF ι) : ℕ → PMF (ι → ℕ)
  | 0 => PMF.pure 0
  | n + 1 => p.bind fun i => (draws p n).map fun m => m + Pi.single i 1

/-- The classes are drawn with a probability proportional to `probs` (external: TFP draws with the logarithms of `probs` as logits).
Without a positive sum this is no distribution; what TFP then does is not modelled. -/
noncomputable def classes (probs : NDArr) : Except Err (PMF (Cell probs.shape)) :=
  if h : (∀ c : Cell probs.shape, 0 ≤ probs.get c.idx) ∧ ∃ c : Cell probs.shape, 0 < probs.get c.idx then
    .ok (PMF.normalize (fun c => ENNReal.ofReal (probs.get c.idx))
      (by
        obtain ⟨-, c, hc⟩ := h
        rw [tsum_fintype]
        refine fun h0 => ?_
        have := (Finset.sum_eq_zero_iff.1 h0) c (Finset.mem_univ _)
        rw [ENNReal.ofReal_eq_zero] at this
        exact absurd (Rat.cast_pos.2 hc) (not_lt.2 this))
      (by
        rw [tsum_fintype]
        exact ENNReal.sum_ne_top.2 fun c _ => ENNReal.ofReal_ne_top))
  else .error .invalidArgument

/-- `limits == self.space` (space.py:2554-2578): the same observables, the limits agree up to 1e-8; the binning is not looked at. -/
def sameLimits (s t : BSpace) : Bool :=
  decide (s.obs.Perm t.obs) && s.axes.all fun a => match t.axes.find? fun b => b.name = a.name with
    | none => false
    | some b => decide (|a.edges.headD 0 - b.edges.headD 0| < 1/100000000) && decide (|a.edges.getLastD 0 - b.edges.getLastD 0| < 1/100000000)

/-- A binned PDF: its space, its relative counts in its bins (C34) and its yield, at the values of the parameters. -/
structure Sampled (Θ : Type) where
  space : BSpace
  relCounts : Θ → NDArr
  yield : Option (Θ → ℝ≥0)

/-- Binned data with random contents. -/
structure Drawn where
  space : BSpace
  shape : List ℕ
  law : PMF (Cell shape → ℕ)

/-- `sample(n, limits, params=...)` (binnedpdf.py:930-964) with the parameters at `θ`, and at `params` (if given) inside of
`_check_set_input_params`.  Without `n` the number of events is drawn before (949-954). `BinnedData` checks the shape; that its
observables are put in the order of the limits (962-963) changes nothing, they are in this order. -/
noncomputable def Sampled.sample {Θ : Type} (p : Sampled Θ) (θ : Θ) (params : Option Θ) (n : Option ℕ) (limits : Option BSpace) :
    Except Err Drawn := do
  let number : PMF ℕ ← match n with
    | some n => .ok (PMF.pure n)
    | none => match p.yield with
      | some y => .ok (poisson (y θ))
      | none => .error .valueError
  let lims := limits.getD p.space
  if sameLimits lims p.space = false then .error .workInProgress
  else
    let probs ← countsFor p.space (p.relCounts (params.getD θ)) (.space lims)
    let d ← classes probs
    if binShape lims ≠ probs.shape then .error .invalidArgument
    else return ⟨lims, probs.shape, number.bind fun n => draws d n⟩

/-! ### Specification -/

/-- The multinomial distribution: `n` in total, and the probability of the contents `m` is n! / ∏ m! times the product of the
probabilities of the bins to the power of their contents. -/
def IsMultinomialLaw {ι : Type} [Fintype ι] (n : ℕ) (p : ι → ℝ) (law : PMF (ι → ℕ)) : Prop :=
  ∀ m, law m = if ∑ i, m i = n then ENNReal.ofReal (n.factorial / (∏ i, (m i).factorial) * ∏ i, p i ^ m i) else 0

/-- The contents are independent of each other and each follows the Poisson distribution with its mean. -/
def IsIndependentPoisson {ι : Type} [Fintype ι] (mean : ι → ℝ≥0) (law : PMF (ι → ℕ)) : Prop :=
  law.toMeasure = MeasureTheory.Measure.pi fun i => poissonMeasure (mean i)

end Zfit.BinPdf
