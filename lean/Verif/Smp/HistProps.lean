import Verif.Smp.Props
import Mathlib.Analysis.SpecialFunctions.Pow.Real
import Mathlib.Tactic.FieldSimp
import Mathlib.Tactic.Ring

/-!
# Conversion to and from histograms, and variances
-/

namespace Zfit.Smp

open Zfit Zfit.Bin

/-! ## C160: histograms survive the conversion -/

theorem regular_edges (name : String) (bins : Nat) (hb : 0 < bins) (start stop : Rat) (t : Bool) :
    (HAxis.regular name bins start stop t).edges.headD 0 = start ∧ (HAxis.regular name bins start stop t).edges.getLastD 0 = stop := by
  have hb' : (bins : ℚ) ≠ 0 := by exact_mod_cast hb.ne'
  constructor
  · simp [HAxis.edges, List.range_succ_eq_map]
  · simp only [HAxis.edges, List.range_succ, List.map_append, List.map_cons, List.map_nil]
    rw [List.getLastD_concat]
    field_simp
    ring

/-- The axis made from a supported axis is that axis: same name, same edges. -/
theorem newFromAxis_supported (a : HAxis) (h : a.Supported) : newFromAxis a = .ok a := by
  cases a with
  | regular name bins start stop t =>
    obtain ⟨h1, h2, rfl⟩ := h
    obtain ⟨e1, e2⟩ := regular_edges name bins h2 start stop false
    unfold newFromAxis
    simp only [Bool.false_eq_true, if_false]
    rw [e1, e2]
    simp [checkName, HAxis.name, h1]
  | «variable» name edges =>
    simp only [HAxis.Supported] at h
    simp [newFromAxis, checkName, HAxis.name, h]
  | other name => exact h.elim

/-- C160, error branch: a transformed axis, an axis without name or of another kind raises. -/
theorem newFromAxis_unsupported (a : HAxis) (h : ¬ a.Supported) (hb : ∀ n s t b, a ≠ .regular n 0 s t b) : newFromAxis a = .error .valueError := by
  cases a with
  | regular name bins start stop t =>
    unfold newFromAxis
    cases t with
    | true => rfl
    | false =>
      have hb0 : 0 < bins := by
        rcases Nat.eq_zero_or_pos bins with h0 | h0
        · subst h0; exact absurd rfl (hb name start stop false)
        · exact h0
      have hn : name = "" := by
        by_contra hn
        exact h ⟨hn, hb0, rfl⟩
      simp [checkName, HAxis.name, hn]
  | «variable» name edges =>
    have hn : name = "" := by
      by_contra hn
      exact h hn
    simp [newFromAxis, checkName, HAxis.name, hn]
  | other name => rfl

theorem checkShapes_fits (axes : List HAxis) (values : NDArr) (variances : HVar) (h : (HData.mk axes values variances).Fits) :
    checkShapes axes values variances = .ok ⟨axes, values, variances⟩ := by
  obtain ⟨h1, h2⟩ := h
  simp only at h1 h2
  have hmake : ∀ v : Option NDArr, (∀ u, v = some u → u.shape = values.shape) →
      Holder.make ⟨axes.map (fun a => ⟨a.name, a.edges⟩)⟩ values v = .ok ⟨⟨axes.map (fun a => ⟨a.name, a.edges⟩)⟩, values, v⟩ := by
    intro v hv
    unfold Holder.make
    cases v with
    | none => simp [h1, Function.comp_def]
    | some u => simp [hv u rfl, h1, Function.comp_def]
  unfold checkShapes
  cases variances with
  | absent => simp only [hmake none (by simp), except_bind_ok, except_pure]
  | nan => simp only [hmake none (by simp), except_bind_ok, except_pure]
  | given v => simp only [hmake (some v) (by intro u hu; cases hu; exact h2 v rfl), except_bind_ok, except_pure]

/-- C160 from a histogram: contents, variances, names and edges of the data are those of the histogram, for every histogram with supported
axes. -/
theorem from_hist (h : HData) (hax : ∀ a ∈ h.axes, a.Supported) (hf : h.Fits) : fromHist h = .ok h := by
  unfold fromHist
  have : h.axes.mapM newFromAxis = .ok h.axes := by
    have := mapM_ok_of_forall newFromAxis id h.axes (fun a ha => newFromAxis_supported a (hax a ha))
    simpa using this
  rw [this, except_bind_ok]
  exact checkShapes_fits h.axes h.values h.variances hf

/-- C160, error branch: one unsupported axis and no data is made. -/
theorem from_hist_unsupported (h : HData) (a : HAxis) (ha : a ∈ h.axes) (hs : ¬ a.Supported) (hb : ∀ n s t b, a ≠ .regular n 0 s t b) (d : HData) :
    fromHist h ≠ .ok d := by
  intro hd
  simp only [fromHist, bind_eq_ok] at hd
  obtain ⟨axes, h1, -⟩ := hd
  have h2 : newFromAxis a ∈ axes.map Except.ok := by
    rw [← (mapM_ok_iff newFromAxis h.axes axes).1 h1]
    exact List.mem_map_of_mem ha
  rw [newFromAxis_unsupported a hs hb] at h2
  simp at h2

/-- C160 for data with variances: converted to a histogram and back it is the same. Missing from the full claim: the cases of
`round_trip_violated`. -/
theorem round_trip_partial (d : HData) (hax : ∀ a ∈ d.axes, a.Supported) (hf : d.Fits) (hv : ∃ v, d.variances = .given v) :
    fromHist (toHist d) = .ok d := by
  obtain ⟨v, hv⟩ := hv
  have : toHist d = d := by
    obtain ⟨axes, values, variances⟩ := d
    simp only at hv
    subst hv
    rfl
  rw [this]
  exact from_hist d hax hf

/-- C160 is violated: data without variances comes back with variances, all of them "not a number". -/
theorem round_trip_violated (d : HData) (hax : ∀ a ∈ d.axes, a.Supported) (hf : d.Fits) (hv : d.variances = .absent) :
    fromHist (toHist d) = .ok ⟨d.axes, d.values, .nan⟩ := by
  have : toHist d = ⟨d.axes, d.values, .nan⟩ := by
    obtain ⟨axes, values, variances⟩ := d
    simp only at hv
    subst hv
    rfl
  rw [this]
  exact from_hist _ hax ⟨hf.1, by intro v hv; cases hv⟩

/-- Non-vacuity: a histogram with a regular and a variable axis. -/
example : let d : HData := ⟨[.regular "x" 2 0 1 false, .variable "y" [0, 1, 5]], arr2 1 2 3 4, .given (arr2 1 2 3 4)⟩
    (∀ a ∈ d.axes, a.Supported) ∧ d.Fits := by
  intro d
  refine ⟨?_, ?_, ?_⟩
  · intro a ha
    simp only [d, List.mem_cons, List.not_mem_nil, or_false] at ha
    rcases ha with rfl | rfl
    · exact ⟨by decide, by decide, rfl⟩
    · show "y" ≠ ""; decide
  · decide +kernel
  · intro v hv; cases hv; rfl

/-! ## C161: variances of binned data -/

/-- The argument `variances` of `BinnedData.from_tensor`: `None`, `True` or an array, by index of the bin. -/
inductive VarArg where
  | none
  | poisson
  | given (v : List Nat → ℝ)

/-- The variances that `BinnedData.from_tensor` stores (binneddatav1.py:226-230); real numbers, since a root is taken. -/
noncomputable def storedVariances (values : List Nat → ℝ) : VarArg → Option (List Nat → ℝ)
  | .poisson => some (fun i => √(values i))
  | .given v => some v
  | .none => Option.none

/-- C161 for given variances, none, and for contents 0 and 1, where the variance is that of a Poisson distributed count, its mean. Missing
from the full claim: the cases of `poisson_variance_violated`, `with_variances_sampler_violated`. -/
theorem variances_partial (values : List Nat → ℝ) (a : VarArg) (h : ∀ i, values i = 0 ∨ values i = 1) :
    storedVariances values a = (match a with | .none => Option.none | .poisson => some values | .given v => some v) := by
  cases a with
  | none => rfl
  | given v => rfl
  | poisson =>
    simp only [storedVariances, Option.some.injEq]
    funext i
    rcases h i with h | h <;> simp [h]

/-- Non-vacuity: contents 0 and 1. -/
example : ∀ i : List Nat, (fun i : List Nat => if i = [0] then (1 : ℝ) else 0) i = 0 ∨ (fun i : List Nat => if i = [0] then (1 : ℝ) else 0) i = 1 := by
  intro i; by_cases h : i = [0] <;> simp [h]

/-- C161 is violated by every bin with another content: the root of the content, not the content, is stored as the variance. -/
theorem poisson_variance_violated (values : List Nat → ℝ) (i : List Nat) (h0 : 0 ≤ values i) (hne0 : values i ≠ 0) (hne1 : values i ≠ 1) :
    ∃ v, storedVariances values .poisson = some v ∧ v i ≠ values i ∧ v i ^ 2 = values i := by
  refine ⟨_, rfl, ?_, Real.sq_sqrt h0⟩
  intro h
  have h2 := Real.sq_sqrt h0
  rw [h] at h2
  have : values i * (values i - 1) = 0 := by ring_nf; rw [h2]; ring
  rcases mul_eq_zero.1 this with h3 | h3
  · exact hne0 h3
  · exact hne1 (by linarith)

example : (0 : ℝ) ≤ (fun _ : List Nat => (4 : ℝ)) [] ∧ (fun _ : List Nat => (4 : ℝ)) [] ≠ 0 ∧ (fun _ : List Nat => (4 : ℝ)) [] ≠ 1 := by norm_num

/-- C161: `with_variances` gives the same contents with the new variances if these have the right shape. Missing from the full claim: the
cases of `poisson_variance_violated`, `with_variances_sampler_violated`. -/
theorem with_variances_partial (h : Holder) (hf : h.values.shape = bins h.space) (v : Option NDArr) (hv : ∀ u, v = some u → u.shape = h.values.shape) :
    withVariances .data h v = .ok ⟨h.space, h.values, v⟩ := by
  have hlen : h.space.axes.length = h.values.shape.length := by rw [hf]; simp [bins]
  have : Holder.make h.space h.values v = .ok ⟨h.space, h.values, v⟩ := by
    have hf' : h.values.shape = h.space.axes.map (fun a => a.edges.length - 1) := hf
    unfold Holder.make
    cases v with
    | none => simp [hf', Function.comp_def]
    | some u => simp [hv u rfl, hf', Function.comp_def]
  unfold withVariances
  rw [this]
  rfl

/-- C161, error branch: variances of another shape are refused. -/
theorem with_variances_shape (c : Cls) (h : Holder) (v : NDArr) (hv : v.shape ≠ h.values.shape) (h' : Holder) :
    withVariances c h (some v) ≠ .ok h' := by
  intro hh
  simp only [withVariances, bind_eq_ok] at hh
  obtain ⟨h1, h2, -⟩ := hh
  obtain ⟨rfl, hs, hu⟩ := make_fits h2
  exact hv ((hu v rfl).trans hs.symm)

/-- C161 is violated: the variances of a sampler can never be replaced this way. -/
theorem with_variances_sampler_violated (h : Holder) (v : Option NDArr) (h' : Holder) : withVariances .sampler h v ≠ .ok h' := by
  intro hh
  simp only [withVariances, bind_eq_ok] at hh
  obtain ⟨h1, h2, h3⟩ := hh
  cases h3

/-- Non-vacuity. -/
example : withVariances .data ⟨exSampler.space, arr [3, 4], none⟩ (some (arr [1, 2])) = .ok ⟨exSampler.space, arr [3, 4], some (arr [1, 2])⟩ := by rfl

end Zfit.Smp
