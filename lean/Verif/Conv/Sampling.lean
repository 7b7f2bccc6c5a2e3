import Verif.Conv.Model
import Verif.Sample.Model
import Mathlib.MeasureTheory.Group.Convolution
import Mathlib.Probability.ConditionalProbability
import Mathlib.MeasureTheory.Constructions.BorelSpace.Real
import Mathlib.MeasureTheory.Measure.Prod
import Mathlib.Tactic.Linarith
import Mathlib.Tactic.NormNum

/-! C95: sampling from a convolution. -/

namespace Zfit.Conv

open Zfit

section Lists

variable {K : Type} [Field K] [LinearOrder K]

/-- Samples are added event by event, and samples with weights only if the weights are dropped explicitly: adding says nothing about weights. -/
theorem sum_samples_spec (w1 w2 drop : Bool) (shuffle : List K → List K) (s1 s2 : List K) :
    (((w1 = true ∨ w2 = true) ∧ drop = false) → sumSamples w1 w2 drop shuffle s1 s2 = .error .workInProgress) ∧
    (¬((w1 = true ∨ w2 = true) ∧ drop = false) →
      ∃ out, sumSamples w1 w2 drop shuffle s1 s2 = .ok out ∧ out.length = min s1.length (shuffle s2).length ∧
        ∀ (i : ℕ) (h1 : i < s1.length) (h2 : i < (shuffle s2).length), out[i]? = some (s1[i] + (shuffle s2)[i])) := by
  constructor
  · rintro ⟨h | h, rfl⟩ <;> simp [sumSamples, h]
  · intro h
    refine ⟨List.zipWith (· + ·) s1 (shuffle s2), ?_, by simp, fun i h1 h2 => by simp [List.getElem?_zipWith, h1, h2]⟩
    cases w1 <;> cases w2 <;> cases drop <;> simp_all [sumSamples]

example : sumSamples true false false id [(1 : ℚ), 2] [10, 20] = .error .workInProgress ∧
    sumSamples true false true id [(1 : ℚ), 2] [10, 20] = .ok [11, 22] := by decide +kernel

/-- Every proposal lies in the requested limits and is the sum of an event of the function and an event of the kernel, for every
shuffle. -/
theorem proposal_spec {sampleF sampleK : K × K → ℕ → List K} {shuffle : List K → List K} {ks lk limits : K × K} {checks : Bool} {n : ℕ}
    {out : List K} (hsh : ∀ l, (shuffle l).Perm l) (h : propose sampleF sampleK shuffle ks lk limits checks n = .ok out) :
    (∀ x ∈ out, limits.1 ≤ x ∧ x ≤ limits.2) ∧
      ∀ x ∈ out, ∃ y ∈ sampleF (limits.1 + ks.1, limits.2 + ks.2) n, ∃ k ∈ sampleK lk n, x = y + k := by
  have hout : out = (List.zipWith (· + ·) (sampleF (sampleRange ks.1 ks.2 limits) n) (shuffle (sampleK lk n))).filter (insideRange limits) := by
    unfold propose sumSamples at h
    simp only [Bool.or_self, Bool.false_and, Bool.false_eq_true, if_false, bind, Except.bind] at h
    split at h
    · cases h
    · cases h; rfl
  subst hout
  constructor
  · intro x hx
    have := (List.mem_filter.1 hx).2
    unfold insideRange at this
    exact of_decide_eq_true this
  · intro x hx
    obtain ⟨i, hi, rfl⟩ := List.mem_iff_getElem.1 (List.mem_filter.1 hx).1
    rw [List.length_zipWith] at hi
    rw [List.getElem_zipWith]
    refine ⟨_, List.getElem_mem (lt_min_iff.1 hi).1, _, (hsh _).mem_iff.1 (List.getElem_mem (lt_min_iff.1 hi).2), rfl⟩

/-- No proposal within the limits is lost: as many as there are pairs whose sum lies in the limits. -/
theorem proposal_complete {sampleF sampleK : K × K → ℕ → List K} {shuffle : List K → List K} {ks lk limits : K × K} {checks : Bool}
    {n : ℕ} {out : List K} (h : propose sampleF sampleK shuffle ks lk limits checks n = .ok out) :
    out = (List.zipWith (· + ·) (sampleF (limits.1 + ks.1, limits.2 + ks.2) n) (shuffle (sampleK lk n))).filter
      fun x => decide (limits.1 ≤ x ∧ x ≤ limits.2) := by
  unfold propose sumSamples at h
  simp only [Bool.or_self, Bool.false_and, Bool.false_eq_true, if_false, bind, Except.bind] at h
  split at h
  · cases h
  · cases h; rfl

/-- If none of the proposals lies in the limits, sampling raises although it would only have to go on: with the numerical checks that are
on by default, and whatever the function and the kernel are. -/
theorem no_proposal_violated {sampleF sampleK : K × K → ℕ → List K} {shuffle : List K → List K} {ks lk limits : K × K} {n : ℕ}
    (h : ∀ y ∈ sampleF (limits.1 + ks.1, limits.2 + ks.2) n, ∀ k ∈ shuffle (sampleK lk n), ¬(limits.1 ≤ y + k ∧ y + k ≤ limits.2)) :
    propose sampleF sampleK shuffle ks lk limits true n = .error .invalidArgument ∧
      propose sampleF sampleK shuffle ks lk limits false n = .ok [] := by
  have e : (List.zipWith (· + ·) (sampleF (sampleRange ks.1 ks.2 limits) n) (shuffle (sampleK lk n))).filter (insideRange limits) = [] := by
    rw [List.filter_eq_nil_iff]
    intro x hx
    obtain ⟨i, hi, rfl⟩ := List.mem_iff_getElem.1 hx
    rw [List.length_zipWith] at hi
    rw [List.getElem_zipWith]
    unfold insideRange
    rw [decide_eq_true_eq]
    exact h _ (List.getElem_mem (lt_min_iff.1 hi).1) _ (List.getElem_mem (lt_min_iff.1 hi).2)
  unfold propose sumSamples
  simp only [Bool.or_self, Bool.false_and, Bool.false_eq_true, if_false, bind, Except.bind, e]
  exact ⟨rfl, rfl⟩

/-- One event of a function on (-1, 5) and a kernel on (-1, 1), to be sampled in (0, 4): 4.6 + 0.5 is outside. -/
example : propose (fun _ _ => [(23 / 5 : ℚ)]) (fun _ _ => [1 / 2]) id (-1, 1) (-1, 1) (0, 4) true 1 = .error .invalidArgument := by
  decide +kernel

example : propose (fun _ _ => [(23 / 5 : ℚ), 2]) (fun _ _ => [1 / 2, -1]) List.reverse (-1, 1) (-1, 1) (0, 4) true 2 =
    .ok [18 / 5, 5 / 2] := by
  decide +kernel

end Lists

/-- All proposals are accepted by the accept-reject loop that calls the proposals (convolution.py 429-439: constant probability 1,
`prob_max=1`; thresholds 1/2 and weights 1): the sample consists of the proposals. -/
theorem all_accepted {E : Type} (n : ℕ) (env : Sample.Env E) (k : ℕ) (s : Sample.St E) (xs : List E) (checks : Bool) :
    let c : Sample.Cfg E := ⟨fun _ => 1, n, some 1, 9 / 10, false, checks⟩
    let d : Sample.Draw E := ⟨xs, xs.map fun _ => 1 / 2, xs.map fun _ => 1, some (xs.map fun _ => 1), xs.length⟩
    Sample.accepted c d (Sample.rescale c env k s d).1 = xs ∧
      ¬ ((xs.map c.prob).zip (Sample.rescale c env k s d).1).any (fun t => decide (t.2 < t.1)) := by
  intro c d
  have e : (Sample.rescale c env k s d).1 = xs.map fun _ => (1 : ℚ) := by
    show List.zipWith (fun m w => 1 / m * w) (xs.map fun _ => (1 : ℚ)) (xs.map fun _ => 1) = _
    rw [List.zipWith_map]
    induction xs with
    | nil => rfl
    | cons a t ih => simp [List.zipWith] at ih ⊢
  rw [e]
  constructor
  · unfold Sample.accepted
    have : (d.sample.zip (d.thresholds.zip (xs.map fun _ => (1 : ℚ)))) = xs.map fun x => (x, (1 / 2 : ℚ), (1 : ℚ)) := by
      show xs.zip ((xs.map fun _ => (1 / 2 : ℚ)).zip (xs.map fun _ => (1 : ℚ))) = _
      clear e
      clear_value d
      induction xs with
      | nil => rfl
      | cons a t ih => simp only [List.map_cons, List.zip_cons_cons, ih]
    rw [this, List.filter_eq_self.2, List.map_map]
    · exact List.map_id _
    · intro t ht
      obtain ⟨x, -, rfl⟩ := List.mem_map.1 ht
      show decide ((1 / 2 : ℚ) * 1 < 1) = true
      decide +kernel
  · rw [Bool.not_eq_true, List.any_eq_false]
    intro t ht
    have h1 := (List.of_mem_zip ht).1
    have h2 := (List.of_mem_zip ht).2
    obtain ⟨_, -, e1⟩ := List.mem_map.1 h1
    obtain ⟨_, -, e2⟩ := List.mem_map.1 h2
    rw [← e1, ← e2]
    simp [c]

/-! ## The distribution of the events -/

open MeasureTheory ProbabilityTheory Set

/-- Restricting the function to a range that contains all `x - k` does not change what is seen of the sum in the limits. -/
theorem conv_restrict (μ ν : Measure ℝ) [SFinite μ] [SFinite ν] {E L : Set ℝ} (hE : MeasurableSet E) (hL : MeasurableSet L)
    {S : Set ℝ} (hν : ∀ᵐ k ∂ν, k ∈ S) (hS : MeasurableSet S) (h : ∀ x ∈ L, ∀ k ∈ S, x - k ∈ E) :
    ((μ.restrict E).conv ν).restrict L = (μ.conv ν).restrict L := by
  have hm : Measurable fun p : ℝ × ℝ => p.1 + p.2 := measurable_fst.add measurable_snd
  ext A hA
  rw [Measure.restrict_apply hA, Measure.restrict_apply hA]
  unfold Measure.conv
  rw [Measure.map_apply hm (hA.inter hL), Measure.map_apply hm (hA.inter hL)]
  have e : (μ.restrict E).prod ν = (μ.prod ν).restrict (E ×ˢ univ) := by
    rw [← Measure.prod_restrict, Measure.restrict_univ]
  rw [e, Measure.restrict_apply (hm (hA.inter hL))]
  refine measure_congr ?_
  have hae : ∀ᵐ p ∂(μ.prod ν), p.2 ∈ S := Measure.quasiMeasurePreserving_snd.ae hν
  filter_upwards [hae] with p hp
  apply propext
  constructor
  · exact fun hq => hq.1
  · intro hq
    refine ⟨hq, ?_, trivial⟩
    have := h (p.1 + p.2) hq.2 p.2 hp
    rwa [add_sub_cancel_right] at this

/-- Part of C95: for a kernel with symmetric limits `(-u, u)` an accepted event, the sum of an event of the function sampled in the
widened range and an event of the kernel, given that it lies in the limits, is distributed as the sum of independent events of the
function and the kernel, given that it lies in the limits. Missing: other kernels (`sampling_violated`). -/
theorem sampling_law_partial (μ ν : Measure ℝ) [IsFiniteMeasure μ] [SFinite ν] (u lo hi : ℝ) (hν : ∀ᵐ k ∂ν, -u ≤ k ∧ k ≤ u)
    (hpos : μ (Icc (sampleRange (-u) u (lo, hi)).1 (sampleRange (-u) u (lo, hi)).2) ≠ 0) :
    cond ((cond μ (Icc (sampleRange (-u) u (lo, hi)).1 (sampleRange (-u) u (lo, hi)).2)).conv ν) (Icc lo hi) =
      cond (μ.conv ν) (Icc lo hi) := by
  set E := Icc (sampleRange (-u) u (lo, hi)).1 (sampleRange (-u) u (lo, hi)).2 with hE
  have key := conv_restrict μ ν (E := E) (L := Icc lo hi) measurableSet_Icc measurableSet_Icc (S := Icc (-u) u) hν measurableSet_Icc
    (by
      intro x hx k hk
      simp only [sampleRange, hE, mem_Icc] at *
      constructor <;> linarith [hx.1, hx.2, hk.1, hk.2])
  have hfin : μ E ≠ ⊤ := measure_ne_top μ E
  have hc0 : (μ E)⁻¹ ≠ 0 := ENNReal.inv_ne_zero.2 hfin
  have hct : (μ E)⁻¹ ≠ ⊤ := ENNReal.inv_ne_top.2 hpos
  have hconv : (cond μ E).conv ν = (μ E)⁻¹ • ((μ.restrict E).conv ν) := by
    unfold ProbabilityTheory.cond Measure.conv
    rw [Measure.prod_smul_left, Measure.map_smul]
  rw [hconv]
  unfold ProbabilityTheory.cond
  rw [Measure.restrict_smul, key, Measure.smul_apply, smul_eq_mul]
  have hLE : (μ.restrict E).conv ν (Icc lo hi) = (μ.conv ν) (Icc lo hi) := by
    have := congrArg (fun m => m (Icc lo hi)) key
    simpa [Measure.restrict_apply measurableSet_Icc] using this
  rw [hLE, smul_smul, ENNReal.mul_inv (Or.inl hc0) (Or.inl hct), mul_assoc, mul_comm ((μ.conv ν) (Icc lo hi))⁻¹, ← mul_assoc,
    ENNReal.inv_mul_cancel hc0 hct, one_mul]

/-- The widened range contains all events of the function that can reach the limits, for all limits, exactly if the limits of the kernel
are symmetric. -/
theorem range_symmetric_iff {kl ku : ℝ} (hk : kl ≤ ku) :
    (∀ lo hi, lo ≤ hi → ∀ y k, kl ≤ k → k ≤ ku → lo ≤ y + k → y + k ≤ hi →
      (sampleRange kl ku (lo, hi)).1 ≤ y ∧ y ≤ (sampleRange kl ku (lo, hi)).2) ↔ kl = -ku := by
  constructor
  · intro h
    have h1 := (h 0 0 le_rfl (-ku) ku hk le_rfl (by simp) (by simp)).1
    have h2 := (h 0 0 le_rfl (-kl) kl le_rfl hk (by simp) (by simp)).2
    simp only [sampleRange] at h1 h2
    linarith
  · rintro rfl lo hi - y k h1 h2 h3 h4
    simp only [sampleRange]
    constructor <;> linarith

/-- The full claim of C95 fails for a kernel on (0, 2) and the limits (0, 4): a function with half of its events at -1 and half at 1, and
a kernel at 3/2. The sum is 1/2 or 5/2, each with probability 1/2 and both in the limits; all sampled events are at 5/2. -/
theorem sampling_violated :
    let μ : Measure ℝ := (2 : ENNReal)⁻¹ • (Measure.dirac (-1) + Measure.dirac 1)
    let ν : Measure ℝ := Measure.dirac (3 / 2)
    (∀ᵐ k ∂ν, (0 : ℝ) ≤ k ∧ k ≤ 2) ∧ sampleRange (0 : ℝ) 2 (0, 4) = (0, 6) ∧ μ (Icc 0 6) = 2⁻¹ ∧
      (μ.conv ν) {1 / 2} = 2⁻¹ ∧ (1 / 2 : ℝ) ∈ Icc (0 : ℝ) 4 ∧ ((cond μ (Icc 0 6)).conv ν) {1 / 2} = 0 := by
  intro μ ν
  have hm : Measurable fun p : ℝ × ℝ => p.1 + p.2 := measurable_fst.add measurable_snd
  refine ⟨?_, ?_, ?_, ?_, ?_, ?_⟩
  · rw [ae_dirac_iff (measurableSet_Icc (a := (0 : ℝ)) (b := 2))]
    norm_num
  · simp [sampleRange]; norm_num
  · simp only [μ, Measure.smul_apply, Measure.add_apply, Measure.dirac_apply' _ measurableSet_Icc, smul_eq_mul]
    simp [Set.indicator]
    norm_num
  · have : μ.conv ν = (2 : ENNReal)⁻¹ • (Measure.dirac (1 / 2) + Measure.dirac (5 / 2)) := by
      simp only [μ, ν, Measure.conv]
      rw [Measure.prod_smul_left, Measure.add_prod, Measure.dirac_prod_dirac, Measure.dirac_prod_dirac, Measure.map_smul,
        Measure.map_add _ _ hm, Measure.map_dirac' hm, Measure.map_dirac' hm]
      norm_num
    rw [this]
    simp only [Measure.smul_apply, Measure.add_apply, Measure.dirac_apply' _ (measurableSet_singleton _), smul_eq_mul]
    simp [Set.indicator]
    norm_num
  · norm_num
  · have : (cond μ (Icc 0 6)).conv ν {1 / 2} = (cond μ (Icc 0 6)) {-1} := by
      simp only [ν, Measure.conv, Measure.prod_dirac]
      rw [Measure.map_map hm (by fun_prop), Measure.map_apply (by fun_prop) (measurableSet_singleton _)]
      congr 1
      ext x
      simp only [Set.mem_preimage, Function.comp, Set.mem_singleton_iff]
      constructor <;> intro h <;> linarith
    rw [this, cond_apply measurableSet_Icc]
    have : Icc (0 : ℝ) 6 ∩ {-1} = ∅ := by
      ext x
      simp only [mem_inter_iff, mem_Icc, mem_singleton_iff, mem_empty_iff_false, iff_false, not_and]
      rintro ⟨h, -⟩ rfl
      linarith
    rw [this]
    simp

/-- The hypotheses of `sampling_law_partial` hold for a function with events at 1 and a kernel at 1/2 with limits (-1, 1). -/
example : (∀ᵐ k ∂(Measure.dirac (1 / 2 : ℝ)), -1 ≤ k ∧ k ≤ (1 : ℝ)) ∧
    (Measure.dirac (1 : ℝ)) (Icc (sampleRange (-1 : ℝ) 1 (0, 4)).1 (sampleRange (-1 : ℝ) 1 (0, 4)).2) ≠ 0 := by
  constructor
  · rw [ae_dirac_iff (measurableSet_Icc (a := (-1 : ℝ)) (b := 1))]
    norm_num
  · rw [Measure.dirac_apply' _ measurableSet_Icc]
    simp [sampleRange, Set.indicator]

end Zfit.Conv
