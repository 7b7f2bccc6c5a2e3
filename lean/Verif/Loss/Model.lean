import Verif.Common.Py
import Mathlib.Analysis.SpecialFunctions.Log.Basic
import Mathlib.Analysis.SpecialFunctions.Sqrt
import Mathlib.Analysis.SpecialFunctions.Trigonometric.Basic

/-!
# Model of the losses

/repo/zfit/core/loss.py and /repo/zfit/_loss/binnedloss.py: construction, value, addition, the constant that is subtracted.
Real numbers instead of floats; the sum is exact (Kahan summation only affects rounding).  `Θ` is the type of parameter points: all the
values of the parameters a loss depends on.  `X` is the type of events.  A model and a dataset are described by what the losses ask of
them.  Left out: gradients (derived from the value), the check that parameter names are unique (C13), warnings, the conversion of
plain arrays to `Data`.
-/

namespace Zfit.Loss

open Zfit

/-- A fit range: which events are inside. -/
abbrev Range (X : Type) := X → Bool

/-- A dataset: the events with weights for the unbinned losses, the contents and variances of the bins for the binned ones. -/
structure Dat (X : Type) where
  points : List X
  weights : Option (List ℝ)
  /-- `samplesize`: sum of weights or number of events -/
  samplesize : ℝ
  /-- `_approx_nevents` -/
  approxNevents : ℝ
  values : List ℝ
  variances : Option (List ℝ)

/-- A model. -/
structure Mod (Θ X : Type) where
  /-- `pdf(x, norm=...)`; `none` is the default norm -/
  pdf : Option (Range X) → Θ → X → ℝ
  yield : Option (Θ → ℝ)
  relCounts : Θ → List ℝ
  /-- `counts`, for extended pdfs -/
  counts : Option (Θ → List ℝ)

/-- A constraint: its value and the number of parameters. -/
structure Constr (Θ : Type) where
  value : Θ → ℝ
  nparams : ℕ

/-- The loss classes. -/
inductive Kind
  | unbinnedNLL
  | extendedUnbinnedNLL
  | binnedNLL
  | extendedBinnedNLL
  | binnedChi2
  | extendedBinnedChi2
  deriving DecidableEq, Repr

/-- The option "errors" of a chi2. -/
inductive Errors
  | data
  | expected
  | other
  deriving DecidableEq, Repr

/-- The option "subtr_const". -/
inductive Subtr
  | no
  | auto
  | given (c : ℝ)

/-- The options that influence the value (loss.py:267-293, binnedloss.py:620-625), with their defaults. -/
structure Opts where
  errors : Errors := .data
  ignoreEmpty : Bool := true
  subtr : Subtr := .auto

/-- A loss object. -/
structure Loss (Θ X : Type) where
  kind : Kind
  model : List (Mod Θ X)
  data : List (Dat X)
  fitRange : List (Option (Range X))
  constraints : List (Constr Θ)
  opts : Opts

variable {Θ X : Type}

/-- Without fit ranges there is `None` for every pair (loss.py:346-365). -/
def fillRanges (pairs : List (Mod Θ X × Dat X)) (fitRange : Option (List (Option (Range X)))) : List (Option (Range X)) :=
  match fitRange with
  | none => pairs.map (fun _ => none)
  | some r => r

/-- `BaseLoss.__init__` with `_input_check` and `_check_convert_model_data` (loss.py:199-247, 335-383, 415-437): models and data are
first zipped, then their numbers are compared. -/
def Loss.make (kind : Kind) (model : List (Mod Θ X)) (data : List (Dat X)) (fitRange : Option (List (Option (Range X))))
    (constraints : List (Constr Θ)) (opts : Opts) : Except Err (Loss Θ X) :=
  let pairs := model.zip data
  let model' := pairs.map (·.1)
  let data' := pairs.map (·.2)
  let fitRange' := fillRanges pairs fitRange
  if model'.length = data'.length ∧ data'.length = fitRange'.length then
    .ok ⟨kind, model', data', fitRange', constraints, opts⟩
  else .error .valueError

/-- `1e-307`, added to avoid the logarithm of zero. -/
noncomputable def eps : ℝ := 10 ^ (-307 : ℤ)

/-- `data.with_obs(fit_range)` (loss.py:112-113): the events inside the fit range with their weights. -/
def Dat.cut (d : Dat X) (r : Option (Range X)) : List X × Option (List ℝ) :=
  match r with
  | none => (d.points, d.weights)
  | some r => (d.points.filter r, d.weights.map (fun w => ((d.points.zip w).filter (fun p => r p.1)).map (·.2)))

/-- `_nll_calc_unbinned_tf` (loss.py:130-142). -/
def nllCalc (logProbs : List ℝ) (weights : Option (List ℝ)) (offset : Option ℝ) : ℝ :=
  let l := match weights with
    | none => logProbs
    | some w => List.zipWith (· * ·) logProbs w
  let l' := (match offset with
    | none => l
    | some c => l.map (· - c))
  Neg.neg l'.sum

/-- `_unbinned_nll_tf` for one model and dataset (loss.py:112-126). -/
noncomputable def nllTerm (m : Mod Θ X) (d : Dat X) (r : Option (Range X)) (θ : Θ) (offset : Option ℝ) : ℝ :=
  let cut := d.cut r
  nllCalc (cut.1.map (fun x => Real.log (m.pdf r θ x + eps))) cut.2 offset

/-- The constant part of `tf.nn.log_poisson_loss` (external): Stirling's approximation. -/
noncomputable def stirling (n : ℝ) : ℝ :=
  if 0 ≤ n ∧ n ≤ 1 then 0 else n * Real.log n - n + Real.log (2 * Real.pi * n) / 2

/-- `tf.nn.log_poisson_loss(n, l, compute_full_loss)` (external). -/
noncomputable def logPoissonLoss (n l : ℝ) (full : Bool) : ℝ := Real.exp l - l * n + if full then stirling n else 0

/-- The offset added to a term (loss.py:1267-1269, binnedloss.py:77-79, 518-520). -/
def addOffset (v : ℝ) (offset : Option ℝ) : ℝ :=
  match offset with
  | none => v
  | some c => v + c

/-- The additional term of an extended unbinned likelihood for one model (loss.py:1256-1270). -/
noncomputable def extTerm (m : Mod Θ X) (d : Dat X) (θ : Θ) (offset : Option ℝ) : Except Err ℝ :=
  match m.yield with
  | none => .error .notExtended
  | some y => .ok (addOffset (logPoissonLoss d.samplesize (Real.log (y θ)) offset.isNone) offset)

/-- `poisson_loss_calc` for one bin (binnedloss.py:46-80). -/
noncomputable def poissonBin (prob value : ℝ) (offset : Option ℝ) : ℝ :=
  addOffset (logPoissonLoss (value + eps) (Real.log (prob + eps)) offset.isNone) offset

/-- The number of expected events per bin: `counts` for an extended loss (binnedloss.py:313, 819), otherwise `rel_counts` times the number
of events (461-462, 665-666). -/
def expected (extended : Bool) (m : Mod Θ X) (d : Dat X) (θ : Θ) : Except Err (List ℝ) :=
  if extended then
    match m.counts with
    | none => .error .notExtended
    | some c => .ok (c θ)
  else .ok ((m.relCounts θ).map (· * d.values.sum))

/-- The Poisson terms of one model and dataset (binnedloss.py:308-316, 456-465). -/
noncomputable def poissonTerm (extended : Bool) (m : Mod Θ X) (d : Dat X) (θ : Θ) (offset : Option ℝ) : Except Err ℝ := do
  let probs ← expected extended m d θ
  return (List.zipWith (fun p v => poissonBin p v offset) probs d.values).sum

/-- One bin of `chi2_loss_calc` (binnedloss.py:511-521). `reciprocal_no_nan` is 0 at 0; so is the model's division, while `reciprocal`,
used if empty bins are not ignored, would be infinite (this case is rejected before, see `Loss.checkChi2`). -/
noncomputable def chi2Bin (prob value variance : ℝ) (offset : Option ℝ) : ℝ :=
  addOffset ((prob - value) ^ 2 * variance⁻¹) offset

/-- The variances to use (binnedloss.py:668-677, 820-830). -/
noncomputable def variancesOf (errors : Errors) (probs : List ℝ) (d : Dat X) : Except Err (List ℝ) :=
  match errors with
  | .expected => .ok (probs.map (fun p => Real.sqrt (p + eps)))
  | .data => match d.variances with
    | some v => .ok v
    | none => .error .valueError
  | .other => .error .valueError

/-- The chi2 of one model and dataset (binnedloss.py:661-680, 815-833). -/
noncomputable def chi2Term (extended : Bool) (errors : Errors) (m : Mod Θ X) (d : Dat X) (θ : Θ) (offset : Option ℝ) : Except Err ℝ := do
  let probs ← expected extended m d θ
  let variances ← variancesOf errors probs d
  return ((List.zip probs (List.zip d.values variances)).map (fun t => chi2Bin t.1 t.2.1 t.2.2 offset)).sum

/-- The sum of the values of the constraints, as each class adds them (loss.py:1108-1110, 1250-1252, binnedloss.py:319-325, 468-474,
683-685, 836-838). -/
def constraintSum (kind : Kind) (cs : List (Constr Θ)) (θ : Θ) (offset : Option ℝ) : ℝ :=
  (cs.map (fun c => match kind with
    | .unbinnedNLL | .extendedUnbinnedNLL => c.value θ
    | .binnedNLL | .extendedBinnedNLL => c.value θ - offset.getD 0 * c.nparams
    | .binnedChi2 | .extendedBinnedChi2 => c.value θ - offset.getD 0)).sum

/-- Sum of terms, each of which may raise. -/
noncomputable def sumTerms (ts : List (Except Err ℝ)) : Except Err ℝ := do
  let vs ← ts.mapM id
  return vs.sum

/-- `_loss_func` of the six classes (loss.py:1087-1111, 1244-1271, binnedloss.py:297-327, 445-476, 646-687, 801-840). `none` is
`log_offset=False`. -/
noncomputable def Loss.lossFunc (l : Loss Θ X) (θ : Θ) (offset : Option ℝ) : Except Err ℝ :=
  let triples := l.model.zip (l.data.zip l.fitRange)
  let pairs := l.model.zip l.data
  let nll := (triples.map (fun t => nllTerm t.1 t.2.1 t.2.2 θ offset)).sum
  let constr := constraintSum l.kind l.constraints θ offset
  match l.kind with
  | .unbinnedNLL => .ok (nll + constr)
  | .extendedUnbinnedNLL => do
    let ext ← sumTerms (pairs.map (fun p => extTerm p.1 p.2 θ offset))
    return nll + constr + ext
  | .binnedNLL => do
    let s ← sumTerms (pairs.map (fun p => poissonTerm false p.1 p.2 θ offset))
    return s + constr
  | .extendedBinnedNLL => do
    let s ← sumTerms (pairs.map (fun p => poissonTerm true p.1 p.2 θ offset))
    return s + constr
  | .binnedChi2 => do
    let s ← sumTerms (pairs.map (fun p => chi2Term false l.opts.errors p.1 p.2 θ offset))
    return s + constr
  | .extendedBinnedChi2 => do
    let s ← sumTerms (pairs.map (fun p => chi2Term true l.opts.errors p.1 p.2 θ offset))
    return s + constr

/-- `_check_small_counts_chi2` (binnedloss.py:524-533), called by the first evaluation of a chi2 (637-644, 792-799). -/
noncomputable def Loss.checkChi2 (l : Loss Θ X) : Except Err Unit :=
  let ignore := l.opts.ignoreEmpty || decide (l.opts.errors = .expected)
  open Classical in
  match l.kind with
  | .binnedChi2 | .extendedBinnedChi2 =>
    if l.data.any (fun d => d.variances.isNone) then .error .valueError
    else if (∃ d ∈ l.data, ∃ v ∈ d.variances.getD [], v ≤ 0) ∧ ¬ ignore then .error .valueError
    else .ok ()
  | _ => .ok ()

/-- The mutable state of a loss: whether it was precompiled and the constant found (`_options["subtr_const_value"]`). -/
structure State where
  precompiled : Bool := false
  offset : Option ℝ := none

/-- The constant, found by the first evaluation or given (loss.py:391-411). -/
noncomputable def Loss.findOffset (l : Loss Θ X) (s : State) (θ : Θ) : Except Err (Option ℝ) :=
  match l.opts.subtr, s.offset with
  | .no, o => .ok o
  | .given c, _ => .ok (some c)
  | .auto, some o => .ok (some o)
  | .auto, none => do
    let v ← l.lossFunc θ (some 0)
    return some (-((v - 10000) / (l.data.map (·.approxNevents)).sum))

/-- `check_precompile` in eager mode (loss.py:385-413, binnedloss.py:637-644): the constant is determined by the first evaluation and then
kept.  The loss counts as precompiled *before* the check of the variances. -/
noncomputable def Loss.precompile (l : Loss Θ X) (s : State) (θ : Θ) : State × Except Err Unit :=
  if s.precompiled then (s, .ok ())
  else match l.findOffset s θ with
    | .error e => (s, .error e)
    | .ok o => (⟨true, o⟩, l.checkChi2)

/-- `value(params=..., full=...)` (loss.py:527-556). -/
noncomputable def Loss.value (l : Loss Θ X) (s : State) (θ : Θ) (full : Bool) : State × Except Err ℝ :=
  match l.precompile s θ with
  | (s', .error e) => (s', .error e)
  | (s', .ok ()) => (s', l.lossFunc θ (if full then none else s'.offset))

/-- A history of evaluations of one loss and their results. -/
noncomputable def Loss.history (l : Loss Θ X) : State → List (Θ × Bool) → List (Except Err ℝ)
  | _, [] => []
  | s, (θ, full) :: rest => (l.value s θ full).2 :: l.history (l.value s θ full).1 rest

/-- `BaseLoss.__add__` (loss.py:583-597) for another `BaseLoss`: options are not handed on. -/
def Loss.add (l l' : Loss Θ X) : Except Err (Loss Θ X) :=
  if l'.kind ≠ l.kind then .error .valueError
  else
    let fitRange := l.fitRange ++ l'.fitRange
    Loss.make l.kind (l.model ++ l'.model) (l.data ++ l'.data)
      (if fitRange.any (·.isSome) then some fitRange else none) (l.constraints ++ l'.constraints) {}

/-- Python's unpacking of a string into two variables, `name, p = s`. -/
def unpackTwo (s : String) : Except Err (Char × Char) :=
  match s.toList with
  | [a, b] => .ok (a, b)
  | _ => .error .valueError

/-- The dict `{name: p for name, p in params if name in selfnames}` (loss.py:1528): iterating a mapping gives its keys. -/
def paramsSelf (params : List String) (selfnames : List String) : Except Err (List (String × String)) := do
  let ps ← params.mapM unpackTwo
  return (ps.filter (fun p => String.singleton p.1 ∈ selfnames)).map (fun p => (String.singleton p.1, String.singleton p.2))

/-- The value of a sum of a `SimpleLoss` and another loss (loss.py:1505-1559), all parameters being independent (a mapping, line
1519-1520): the two losses are evaluated with the parameters of each. -/
def simpleAddValue (params selfnames othernames : List String)
    (valueSelf valueOther : List (String × String) → Except Err ℝ) (scale : ℝ) : Except Err ℝ := do
  let ps ← paramsSelf params selfnames
  let po := (params.filter (· ∈ othernames)).map (fun n => (n, n))
  let v ← valueSelf ps
  let w ← valueOther po
  return v + scale * w

end Zfit.Loss
