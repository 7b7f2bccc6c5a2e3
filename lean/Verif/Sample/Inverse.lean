import Verif.Sample.LawLimits
import Mathlib.MeasureTheory.Constructions.BorelSpace.Order

/-!
# Properties C277 and C278: sampling with the inverse of the integral, and which way of sampling is taken

* C277 `inverse_sample_law`, `inverse_sample_refused`
* C278 `call_sample_order`
-/

namespace Zfit.Sample

open Zfit MeasureTheory ENNReal ProbabilityTheory

/-- The exceptions between the ways to sample. -/
inductive SErr where
  /-- `SpecificFunctionNotImplemented` -/
  | specific
  /-- `AnalyticSamplingNotImplemented` -/
  | sampling
  /-- `AnalyticIntegralNotImplemented` -/
  | integral
  /-- `MultipleLimitsNotImplemented` -/
  | multipleLimits
  /-- `WorkInProgressError` -/
  | workInProgress
  /-- `RuntimeError` -/
  | runtime
  /-- anything else -/
  | other (s : String)
  deriving DecidableEq

/-- `BaseModel._call_sample` (basemodel.py:1236-1241): the user's `_sample`, then `_analytic_sample`, then accept-reject. -/
def callSample {E : Type} (user analytic fallback : Except SErr (List E)) : Except SErr (List E) :=
  match user with
  | .error .specific =>
    match analytic with
    | .error .specific => fallback
    | .error .sampling => fallback
    | r => r
  | r => r

/-- What `_analytic_sample` needs of the model and the limits. -/
structure InvCfg where
  /-- `_inverse_analytic_integral`: the function registered last and its number of parameters; `none` if there is none -/
  inverse : Option ((ℝ → ℝ) × ℕ)
  /-- the number of limits -/
  nLimits : ℕ
  /-- the limits have values (they are not symbolic tensors) -/
  numpy : Bool
  /-- `_norm_analytic_integrate` from minus infinity up to the argument, without norm -/
  integral : ℝ → Except SErr ℝ

/-- `BaseModel._inverse_analytic_integrate` (basemodel.py:1042-1055). -/
def InvCfg.apply (c : InvCfg) (xs : List ℝ) : Except SErr (List ℝ) :=
  match c.inverse with
  | none => .error .sampling
  | some (f, k) => if k = 2 ∨ k = 3 then .ok (xs.map f) else .error .runtime

/-- `BaseModel._analytic_sample` (basemodel.py:1243-1277) for one observable.  `us` are the numbers of the random generator, in [0, 1);
`z.random.uniform` with `minval` and `maxval` scales and shifts them. -/
def InvCfg.sample (c : InvCfg) (lower upper : ℝ) (us : List ℝ) : Except SErr (List ℝ) :=
  if c.inverse.isNone then .error .sampling
  else if 1 < c.nLimits then .error .sampling
  else if !c.numpy then .error .workInProgress
  else match c.integral lower, c.integral upper with
    | .ok lo, .ok up => c.apply (us.map fun u => lo + u * (up - lo))
    | .ok _, .error .specific => .error .sampling
    | .ok _, .error .integral => .error .sampling
    | .ok _, .error e => .error e
    | .error .specific, _ => .error .sampling
    | .error .integral, _ => .error .sampling
    | .error e, _ => .error e

/-- The law of a number of the random generator. -/
noncomputable def unitLaw : Measure ℝ := volume.restrict (Set.Ico 0 1)

instance : IsProbabilityMeasure unitLaw := ⟨by simp [unitLaw]⟩

/-- A number uniform between the integrals up to the limits, put into the inverse of the integral. -/
theorem inverse_law (F q : ℝ → ℝ) (hqm : Measurable q) (ν : Measure ℝ) (hν : ∀ a b, a ≤ b → ν (Set.Ioc a b) = ENNReal.ofReal (F b - F a))
    (hF : Monotone F) (lo hi : ℝ) (hlt : F lo < F hi) (hq : ∀ p, F lo < p → p < F hi → ∀ t, q p ≤ t ↔ p ≤ F t) :
    unitLaw.map (fun u => q (F lo + u * (F hi - F lo))) = ν[|Set.Ioc lo hi] := by
  have hlohi : lo ≤ hi := by
    by_contra hc
    exact absurd (hF (not_le.1 hc).le) (not_le.2 hlt)
  have hpos : 0 < F hi - F lo := sub_pos.2 hlt
  have hm : Measurable (fun u => q (F lo + u * (F hi - F lo))) := by fun_prop
  haveI : IsProbabilityMeasure (unitLaw.map (fun u => q (F lo + u * (F hi - F lo)))) := Measure.isProbabilityMeasure_map hm.aemeasurable
  refine Measure.ext_of_Iic _ _ fun t => ?_
  rw [Measure.map_apply hm measurableSet_Iic, cond_apply measurableSet_Ioc, hν _ _ hlohi, Set.Ioc_inter_Iic, ← ENNReal.ofReal_inv_of_pos hpos]
  -- the numbers whose event is at most `t`
  obtain ⟨r, hr⟩ : ∃ r, r = (F t - F lo) / (F hi - F lo) := ⟨_, rfl⟩
  have hset : ∀ u, 0 < u → u < 1 → (q (F lo + u * (F hi - F lo)) ≤ t ↔ u ≤ r) := by
    intro u u0 u1
    have hp1 : 0 < u * (F hi - F lo) := mul_pos u0 hpos
    have hp2 : u * (F hi - F lo) < F hi - F lo := mul_lt_of_lt_one_left hpos u1
    rw [hq _ (by linarith) (by linarith) t, hr, le_div_iff₀ hpos]
    constructor <;> intro h <;> linarith
  have hvol : unitLaw ((fun u => q (F lo + u * (F hi - F lo))) ⁻¹' Set.Iic t) = ENNReal.ofReal (min r 1) := by
    unfold unitLaw
    rw [Measure.restrict_apply' measurableSet_Ico]
    refine le_antisymm ?_ ?_
    · calc volume ((fun u => q (F lo + u * (F hi - F lo))) ⁻¹' Set.Iic t ∩ Set.Ico 0 1) ≤ volume (Set.Ioc 0 (min r 1) ∪ {0}) := by
            refine measure_mono ?_
            rintro u ⟨hu, h0, h1⟩
            rcases h0.eq_or_lt with rfl | h0
            · exact Or.inr rfl
            · exact Or.inl ⟨h0, le_min ((hset u h0 h1).1 hu) h1.le⟩
        _ ≤ volume (Set.Ioc 0 (min r 1)) + volume {(0 : ℝ)} := measure_union_le _ _
        _ = ENNReal.ofReal (min r 1) := by rw [Real.volume_Ioc, sub_zero, Real.volume_singleton, add_zero]
    · calc ENNReal.ofReal (min r 1) = volume (Set.Ioo 0 (min r 1)) := by rw [Real.volume_Ioo, sub_zero]
        _ ≤ volume ((fun u => q (F lo + u * (F hi - F lo))) ⁻¹' Set.Iic t ∩ Set.Ico 0 1) := by
            refine measure_mono ?_
            rintro u ⟨h0, h1⟩
            have hu1 := h1.trans_le (min_le_right _ _)
            exact ⟨(hset u h0 hu1).2 (h1.le.trans (min_le_left _ _)), h0.le, hu1⟩
  rw [hvol]
  rcases le_or_gt t lo with htl | htl
  · have hr0 : r ≤ 0 := by
      rw [hr]
      exact div_nonpos_of_nonpos_of_nonneg (by have := hF htl; linarith) hpos.le
    have : Set.Ioc lo (min hi t) = ∅ := Set.Ioc_eq_empty_of_le ((min_le_right _ _).trans htl)
    rw [this, measure_empty, mul_zero, ENNReal.ofReal_of_nonpos ((min_le_left _ _).trans hr0)]
  · rw [hν _ _ (le_min hlohi htl.le), ← ENNReal.ofReal_mul (inv_nonneg.2 hpos.le)]
    congr 1
    rw [← div_eq_inv_mul]
    rcases le_total t hi with hth | hth
    · have : r ≤ 1 := by rw [hr, div_le_one hpos]; have := hF hth; linarith
      rw [min_eq_left this, min_eq_right hth, hr]
    · have : 1 ≤ r := by rw [hr, one_le_div hpos]; have := hF hth; linarith
      rw [min_eq_right this, min_eq_left hth, div_self hpos.ne']

theorem independent_law (f : ℝ → ℝ) (hf : Measurable f) (μ : Measure ℝ) (hμ : unitLaw.map f = μ) (n : ℕ) (B : Set (List ℝ))
    (hB : MeasurableSet {x : Fin n → ℝ | List.ofFn x ∈ B}) :
    Measure.pi (fun _ : Fin n => unitLaw) {us | (List.ofFn us).map f ∈ B} = Measure.pi (fun _ : Fin n => μ) {x | List.ofFn x ∈ B} := by
  haveI : IsProbabilityMeasure (unitLaw.map f) := Measure.isProbabilityMeasure_map hf.aemeasurable
  have hset : {us : Fin n → ℝ | (List.ofFn us).map f ∈ B} = (fun us k => f (us k)) ⁻¹' {x | List.ofFn x ∈ B} := by
    ext us
    simp only [Set.mem_setOf_eq, Set.mem_preimage, List.map_ofFn]
    rfl
  have hmm : Measurable (fun (us : Fin n → ℝ) k => f (us k)) := measurable_pi_lambda _ fun k => hf.comp (measurable_pi_apply k)
  rw [hset, ← hμ, ← Measure.pi_map_pi (f := fun _ => f) (fun _ => hf.aemeasurable), Measure.map_apply hmm hB]

/-- C277.  Where the function registered last is the inverse `q` of the integral `F` of the PDF `p` (which need not be normalised), a sample of `n` events
between two limits consists of `n` independent events that follow the PDF within the limits. -/
theorem inverse_sample_law (c : InvCfg) (q F p : ℝ → ℝ) (k : ℕ) (hinv : c.inverse = some (q, k)) (hk : k = 2 ∨ k = 3) (hn : c.nLimits ≤ 1)
    (hnp : c.numpy = true) (hint : ∀ x, c.integral x = .ok (F x)) (hqm : Measurable q) (hpm : Integrable p) (hp : ∀ x, 0 ≤ p x)
    (hF : ∀ x, F x = ∫ t in Set.Iic x, p t) (lo hi : ℝ) (hlt : F lo < F hi)
    (hq : ∀ y, F lo < y → y < F hi → ∀ t, q y ≤ t ↔ y ≤ F t) (n : ℕ) (B : Set (List ℝ))
    (hB : MeasurableSet {x : Fin n → ℝ | List.ofFn x ∈ B}) :
    Measure.pi (fun _ : Fin n => unitLaw) {us | ∃ l, c.sample lo hi (List.ofFn us) = .ok l ∧ l ∈ B} =
      Measure.pi (fun _ : Fin n => (volume.withDensity fun x => ENNReal.ofReal (p x))[|Set.Ioc lo hi]) {x | List.ofFn x ∈ B} := by
  have hdiff : ∀ a b, a ≤ b → F b - F a = ∫ t in Set.Ioc a b, p t := by
    intro a b hab
    rw [hF, hF, ← intervalIntegral.integral_of_le hab, intervalIntegral.integral_Iic_sub_Iic hpm.integrableOn hpm.integrableOn]
  have hmono : Monotone F := by
    intro a b hab
    have h1 := hdiff a b hab
    have h2 : 0 ≤ ∫ t in Set.Ioc a b, p t := setIntegral_nonneg measurableSet_Ioc fun t _ => hp t
    linarith
  have hν : ∀ a b, a ≤ b → (volume.withDensity fun x => ENNReal.ofReal (p x)) (Set.Ioc a b) = ENNReal.ofReal (F b - F a) := by
    intro a b hab
    rw [hdiff a b hab, withDensity_apply _ measurableSet_Ioc,
      ofReal_integral_eq_lintegral_ofReal hpm.integrableOn (Filter.Eventually.of_forall hp)]
  have hs : ∀ us, c.sample lo hi us = .ok (us.map fun u => q (F lo + u * (F hi - F lo))) := by
    intro us
    unfold InvCfg.sample InvCfg.apply
    simp only [hinv, hint, hnp, Option.isNone_some, Bool.false_eq_true, if_false, Nat.not_lt.2 hn, Bool.not_true, hk, if_true, List.map_map]
    rfl
  simp only [hs, Except.ok.injEq, exists_eq_left']
  exact independent_law (fun u => q (F lo + u * (F hi - F lo))) (by fun_prop) _
    (inverse_law F q hqm _ hν hmono lo hi hlt hq) n B hB

/-- C277.  Without a registered inverse, with several limits or without the integral from minus infinity up to one of the limits, the request is refused, so that the sample is
made by accept-reject instead. -/
theorem inverse_sample_refused (c : InvCfg) (lo hi : ℝ) (us : List ℝ) (user fallback : Except SErr (List ℝ)) (hu : user = .error .specific)
    (h : c.inverse = none ∨ 1 < c.nLimits ∨ (c.numpy = true ∧ (c.integral lo = .error .integral ∨ c.integral lo = .error .specific)) ∨
      (c.numpy = true ∧ (∃ v, c.integral lo = .ok v) ∧ (c.integral hi = .error .integral ∨ c.integral hi = .error .specific))) :
    callSample user (c.sample lo hi us) fallback = fallback := by
  have : c.sample lo hi us = .error .sampling := by
    unfold InvCfg.sample
    rcases h with h | h | ⟨h, h' | h'⟩ | ⟨h, ⟨v, hv⟩, h' | h'⟩
    · simp [h]
    · simp [h]
    · split
      · rfl
      · split
        · rfl
        · simp [h, h']
    · split
      · rfl
      · split
        · rfl
        · simp [h, h']
    all_goals
      split
      · rfl
      · split
        · rfl
        · simp [h, hv, h']
  rw [hu, this]
  rfl

/-- C278.  The user's own sampling is used if there is one, whatever it does; otherwise the analytic sampling, if it is possible, and accept-reject
only if both say that they are not implemented.  Any other exception is handed on. -/
theorem call_sample_order {E : Type} (user analytic fallback : Except SErr (List E)) :
    (user ≠ .error .specific → callSample user analytic fallback = user) ∧
    (user = .error .specific → analytic ≠ .error .specific → analytic ≠ .error .sampling → callSample user analytic fallback = analytic) ∧
    (user = .error .specific → analytic = .error .specific ∨ analytic = .error .sampling → callSample user analytic fallback = fallback) := by
  refine ⟨fun h => ?_, fun h h1 h2 => ?_, fun h h1 => ?_⟩
  · unfold callSample
    split
    · exact absurd rfl h
    · rfl
  · subst h
    rcases analytic with e | r
    · cases e <;> first | rfl | exact absurd rfl h1 | exact absurd rfl h2
    · rfl
  · subst h
    rcases h1 with rfl | rfl <;> rfl

/-- The pdf that is 3 on [0, 1] (not normalised), its integral and the inverse of it: two numbers of the generator between the limits 0 and 1/2. -/
example : (InvCfg.sample ⟨some (fun y => y / 3, 2), 1, true, fun x => .ok (3 * max 0 (min x 1))⟩ 0 (1 / 2) [1 / 2, 1 / 4]) =
    .ok [1 / 4, 1 / 8] := by
  simp [InvCfg.sample, InvCfg.apply]
  norm_num

/-- It meets the hypotheses of the theorem. -/
example : ∃ q F p : ℝ → ℝ, Measurable q ∧ Integrable p ∧ (∀ x, 0 ≤ p x) ∧ (∀ x, F x = ∫ t in Set.Iic x, p t) ∧ F 0 < F (1 / 2) ∧
    ∀ y, F 0 < y → y < F (1 / 2) → ∀ t, q y ≤ t ↔ y ≤ F t := by
  refine ⟨fun y => y / 3, fun x => 3 * max 0 (min x 1), Set.indicator (Set.Ioc 0 1) fun _ => 3, by fun_prop, ?_, ?_, ?_, by norm_num, ?_⟩
  · rw [integrable_indicator_iff measurableSet_Ioc]
    exact integrableOn_const (by simp)
  · exact fun x => Set.indicator_nonneg (fun _ _ => by norm_num) x
  · intro x
    rw [integral_indicator measurableSet_Ioc, Measure.restrict_restrict measurableSet_Ioc, Set.Ioc_inter_Iic]
    simp only [integral_const, smul_eq_mul, measureReal_restrict_apply_univ, Real.volume_real_Ioc, sub_zero]
    rw [mul_comm, max_comm, min_comm]
  · intro y h0 h1 t
    norm_num at h0 h1
    show y / 3 ≤ t ↔ y ≤ 3 * max 0 (min t 1)
    rw [div_le_iff₀ (by norm_num)]
    constructor
    · intro h
      have : y / 3 ≤ max 0 (min t 1) := le_max_of_le_right (le_min (by linarith) (by linarith))
      linarith
    · intro h
      rcases le_total t 0 with h2 | h2
      · rw [min_eq_left (by linarith), max_eq_left h2] at h
        linarith
      · have := min_le_left t 1
        have h3 : max 0 (min t 1) ≤ t := max_le h2 this
        linarith

end Zfit.Sample
