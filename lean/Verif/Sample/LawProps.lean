import Verif.Sample.LawHeart
import Verif.Sample.Props
import Mathlib.MeasureTheory.Constructions.Pi

/-!
# Properties of the law of sampled events

* C268 `sample_follows_pdf`, `sampling_ends`
* C269 `accepted_independently`
* C270 `default_sample_follows_pdf_partial` (refuted in LawViolated.lean)
-/

namespace Zfit.Sample

open Zfit MeasureTheory ENNReal

variable {E : Type}

/-! ## C268 -/

theorem steady_known (c : Cfg E ℝ) (pm wm : ℝ) (hpm : c.probMax = some pm) (w : E → ℝ) (binom) (shuffle) (ω : ℕ × ℕ → E × ℝ)
    (hpw : ∀ x, c.prob x ≤ pm / wm * w x) :
    Steady c (streamEnv w (some wm) binom shuffle ω) (fun x => pm / wm * w x) (fun _ => True) := by
  refine ⟨?_, ?_, fun _ _ _ _ _ _ _ _ => trivial, hpw⟩
  · intro k m s _
    simp only [rescale, hpm, streamEnv, Option.map_some, List.map_map]
    apply List.ext_getElem
    · simp
    · intro i h1 h2
      simp
  · intro k m s _
    simp only [rescale, hpm, streamEnv, Option.map_some]

theorem steady_scaling (c : Cfg E ℝ) (hpm : c.probMax = none) (σ : ℝ) (hσ : 0 < σ) (w : E → ℝ) (hw0 : ∀ x, 0 ≤ w x) (wmax : Option ℝ) (binom)
    (shuffle) (ω : ℕ × ℕ → E × ℝ) (hpw : ∀ x, c.prob x ≤ σ * w x) :
    Steady c (streamEnv w wmax binom shuffle ω) (fun x => σ * w x) (fun s => s.scaling = σ ∧ 0 ≤ s.wMax ∧ s.pMax ≤ σ * s.wMax) := by
  have hest : ∀ k m (s : St E ℝ), s.scaling = σ ∧ 0 ≤ s.wMax ∧ s.pMax ≤ σ * s.wMax →
      (estimate c s ((streamEnv w wmax binom shuffle ω).draw k m)).1 = σ ∧
      0 ≤ (estimate c s ((streamEnv w wmax binom shuffle ω).draw k m)).2.1 ∧
      (estimate c s ((streamEnv w wmax binom shuffle ω).draw k m)).2.2 ≤ σ * (estimate c s ((streamEnv w wmax binom shuffle ω).draw k m)).2.1 := by
    rintro k m s ⟨h1, h2, h3⟩
    obtain ⟨W, hW⟩ : ∃ W, W = max s.wMax (maxOf ((streamEnv w wmax binom shuffle ω).draw k m).weights) := ⟨_, rfl⟩
    have hW0 : 0 ≤ W := by rw [hW]; exact le_max_of_le_left h2
    have hwW : ∀ j < m, w (ω (k, j)).1 ≤ W := by
      intro j hj
      rw [hW]
      refine le_max_of_le_right (le_maxOf ?_)
      simp only [streamEnv, List.mem_map, List.mem_range]
      exact ⟨j, hj, rfl⟩
    have hP : max s.pMax (maxOf (((streamEnv w wmax binom shuffle ω).draw k m).sample.map c.prob)) ≤ σ * W := by
      refine max_le (h3.trans ?_) (maxOf_le (mul_nonneg hσ.le hW0) ?_)
      · rw [hW]; exact mul_le_mul_of_nonneg_left (le_max_left _ _) hσ.le
      · intro x hx
        simp only [streamEnv, List.mem_map, List.mem_range] at hx
        obtain ⟨_, ⟨j, hj, rfl⟩, rfl⟩ := hx
        exact (hpw _).trans (mul_le_mul_of_nonneg_left (hwW j hj) hσ.le)
    have hR : ¬ s.scaling < max (max s.pMax (maxOf (((streamEnv w wmax binom shuffle ω).draw k m).sample.map c.prob)) / W)
        (maxOf (List.zipWith (· / ·) (((streamEnv w wmax binom shuffle ω).draw k m).sample.map c.prob)
          (((streamEnv w wmax binom shuffle ω).draw k m).weights.map (fun v => max v (W / 100000))))) := by
      rw [not_lt, h1]
      refine max_le ?_ (maxOf_le hσ.le ?_)
      · rcases hW0.eq_or_lt with h | h
        · rw [← h, _root_.div_zero]; exact hσ.le
        · rw [div_le_iff₀ h]; exact hP
      · intro x hx
        obtain ⟨j, hj, rfl⟩ := List.getElem_of_mem hx
        simp only [List.getElem_zipWith, List.getElem_map, streamEnv, List.getElem_range]
        have h5 : 0 ≤ max (w (ω (k, j)).1) (W / 100000) := le_max_of_le_left (hw0 _)
        rcases h5.eq_or_lt with h | h
        · rw [← h, _root_.div_zero]; exact hσ.le
        · rw [div_le_iff₀ h]
          exact (hpw _).trans (mul_le_mul_of_nonneg_left (le_max_left _ _) hσ.le)
    unfold estimate
    simp only
    rw [← hW, if_neg hR]
    exact ⟨h1, hW0, hP⟩
  have hres : ∀ k m (s : St E ℝ), rescale c (streamEnv w wmax binom shuffle ω) k s ((streamEnv w wmax binom shuffle ω).draw k m) =
      (((streamEnv w wmax binom shuffle ω).draw k m).weights.map
          (fun v => (estimate c s ((streamEnv w wmax binom shuffle ω).draw k m)).1 * v),
        if s.scaling = (estimate c s ((streamEnv w wmax binom shuffle ω).draw k m)).1 then s.nProduced
        else binom k s.nProduced (s.scaling / (estimate c s ((streamEnv w wmax binom shuffle ω).draw k m)).1),
        estimate c s ((streamEnv w wmax binom shuffle ω).draw k m)) := by
    intro k m s
    unfold rescale
    simp only [hpm]
    rfl
  refine ⟨?_, ?_, ?_, hpw⟩
  · intro k m s hs
    rw [hres, (hest k m s hs).1]
    simp only [streamEnv, List.map_map]
    rfl
  · intro k m s hs
    rw [hres]
    simp only
    rw [if_pos (by rw [(hest k m s hs).1]; exact hs.1)]
  · intro k m s t hs h1 h2 h3
    rw [hres] at h1 h2 h3
    simp only at h1 h2 h3
    have := hest k m s hs
    rw [← h1, ← h2, ← h3] at this
    exact this

variable [MeasurableSpace E]

/-- C268.  `accept_reject_sample` within one piece of the limits, with the maximum `pm` of the pdf given, which together with the maximum
`wm` of the weights covers the pdf (`c.prob x ≤ pm / wm * w x`).  With probability one the call returns, and the `n` events it returns are
independent of each other, each distributed like the pdf: the probability that the `i`-th event is in `A i` for all `i` is the product of
the shares of the `A i` in the integral of the pdf. -/
theorem sample_follows_pdf (μ : Measure E) (w : E → ℝ) [IsProbabilityMeasure (μ.withDensity (fun x => ENNReal.ofReal (w x)))]
    (c : Cfg E ℝ) (hmult : c.multipleLimits = false) (heff : c.effInit ≤ 1) (pm wm : ℝ) (hpm : c.probMax = some pm) (hpos : 0 < pm / wm)
    (binom : ℕ → ℕ → ℝ → ℕ) (shuffle : List (Option E) → List (Option E)) (hp : Measurable c.prob) (hw : Measurable w)
    (hp0 : ∀ x, 0 ≤ c.prob x) (hw0 : ∀ x, 0 ≤ w x) (hcover : ∀ x, c.prob x ≤ pm / wm * w x)
    (hint : ∫⁻ x, ENNReal.ofReal (c.prob x) ∂μ ≠ 0) (A : ℕ → Set E) (hA : ∀ i, MeasurableSet (A i)) :
    randomness μ w {ω | ∃ fuel r, acceptReject c (streamEnv w (some wm) binom shuffle ω) fuel = some (.ok r) ∧ r.length = c.n ∧
        ∀ i < c.n, ∃ e ∈ A i, r[i]? = some e} =
      ∏ i ∈ Finset.range c.n, share μ c.prob (A i) := by
  have := law_of_steady μ w c hmult (some wm) binom shuffle (pm / wm) hpos hp hw hp0 hw0 hcover hint (fun _ => True)
    (fun ω => steady_known c pm wm hpm w binom shuffle ω hcover) 0 (start c) trivial [] rfl (by simp [start]) (by simp [start]) (by simp)
    heff (by simp [start]) A hA
  simp only [List.length_nil, Nat.sub_zero, List.take_zero, true_and, Nat.zero_add] at this
  rw [← this]
  rfl

/-- C270, partial.  The default, no maximum given: from any pass on before which the scaling covers the pdf (`c.prob x ≤ s.scaling * w x`), in
whatever way the events `old` before came about.  With probability one the call returns, the events `old` stay, and the events added to
them are independent of each other, each distributed like the pdf.  Missing from the full claim: the events accepted while the scaling does
not cover the pdf yet; the claim is false for them, see `default_sample_follows_pdf_violated`. -/
theorem default_sample_follows_pdf_partial (μ : Measure E) (w : E → ℝ) [IsProbabilityMeasure (μ.withDensity (fun x => ENNReal.ofReal (w x)))]
    (c : Cfg E ℝ) (hmult : c.multipleLimits = false) (hpm : c.probMax = none) (wmax : Option ℝ) (binom : ℕ → ℕ → ℝ → ℕ)
    (shuffle : List (Option E) → List (Option E)) (hp : Measurable c.prob) (hw : Measurable w) (hp0 : ∀ x, 0 ≤ c.prob x) (hw0 : ∀ x, 0 ≤ w x)
    (hint : ∫⁻ x, ENNReal.ofReal (c.prob x) ∂μ ≠ 0) (k : ℕ) (s : St E ℝ) (hpos : 0 < s.scaling) (hcover : ∀ x, c.prob x ≤ s.scaling * w x)
    (hmax : 0 ≤ s.wMax ∧ s.pMax ≤ s.scaling * s.wMax) (old : List E) (hn : s.nProduced = old.length) (hl : s.nProduced ≤ s.arr.length)
    (harr : s.arr.take s.nProduced = old.map some) (hle : old.length ≤ c.n) (heff : s.eff ≤ 1) (hdrawn : s.nProduced ≤ s.nDrawn)
    (A : ℕ → Set E) (hA : ∀ i, MeasurableSet (A i)) :
    randomness μ w {ω | ∃ fuel r, resume c (streamEnv w wmax binom shuffle ω) fuel k s = some (.ok r) ∧ r.length = c.n ∧
        r.take old.length = old ∧ ∀ i < c.n - old.length, ∃ e ∈ A i, r[old.length + i]? = some e} =
      ∏ i ∈ Finset.range (c.n - old.length), share μ c.prob (A i) :=
  law_of_steady μ w c hmult wmax binom shuffle s.scaling hpos hp hw hp0 hw0 hcover hint
    (fun t => t.scaling = s.scaling ∧ 0 ≤ t.wMax ∧ t.pMax ≤ s.scaling * t.wMax)
    (fun ω => steady_scaling c hpm s.scaling hpos w hw0 wmax binom shuffle ω hcover) k s ⟨rfl, hmax⟩ old hn hl harr hle heff hdrawn A hA

/-- Resuming at the beginning is the whole call. -/
theorem resume_start (c : Cfg E ℝ) (env : Env E ℝ) (fuel : ℕ) : resume c env fuel 0 (start c) = acceptReject c env fuel := rfl

/-- C268.  With probability one the call returns after finitely many passes, with as many events as asked for. -/
theorem sampling_ends (μ : Measure E) (w : E → ℝ) [IsProbabilityMeasure (μ.withDensity (fun x => ENNReal.ofReal (w x)))]
    (c : Cfg E ℝ) (hmult : c.multipleLimits = false) (heff : c.effInit ≤ 1) (pm wm : ℝ) (hpm : c.probMax = some pm) (hpos : 0 < pm / wm)
    (binom : ℕ → ℕ → ℝ → ℕ) (shuffle : List (Option E) → List (Option E)) (hp : Measurable c.prob) (hw : Measurable w)
    (hp0 : ∀ x, 0 ≤ c.prob x) (hw0 : ∀ x, 0 ≤ w x) (hcover : ∀ x, c.prob x ≤ pm / wm * w x)
    (hint : ∫⁻ x, ENNReal.ofReal (c.prob x) ∂μ ≠ 0) (hfin : ∫⁻ x, ENNReal.ofReal (c.prob x) ∂μ ≠ ∞) :
    randomness μ w {ω | ∃ fuel r, acceptReject c (streamEnv w (some wm) binom shuffle ω) fuel = some (.ok r) ∧ r.length = c.n} = 1 := by
  have := sample_follows_pdf μ w c hmult heff pm wm hpm hpos binom shuffle hp hw hp0 hw0 hcover hint (fun _ => Set.univ)
    (fun _ => MeasurableSet.univ)
  have hs : share μ c.prob Set.univ = 1 := by
    unfold share
    rw [Measure.restrict_univ, ENNReal.div_self hint hfin]
  rw [hs, Finset.prod_const_one] at this
  rw [← this]
  congr 1
  ext ω
  simp only [Set.mem_setOf_eq, Set.mem_univ, true_and]
  constructor
  · rintro ⟨fuel, r, h1, h2⟩
    exact ⟨fuel, r, h1, h2, fun i hi => ⟨r[i], List.getElem?_eq_getElem (by omega)⟩⟩
  · rintro ⟨fuel, r, h1, h2, -⟩
    exact ⟨fuel, r, h1, h2⟩

/-! ## C269 -/

theorem accepted_filter (c : Cfg E ℝ) {m : ℕ} (xs : Fin m → E) (t b : Fin m → ℝ) (ws : List ℝ) (wmax : Option (List ℝ)) (nd : ℕ) :
    accepted c ⟨List.ofFn xs, List.ofFn t, ws, wmax, nd⟩ (List.ofFn b) =
      ((List.finRange m).filter (fun j => decide (t j * b j < c.prob (xs j)))).map xs := by
  unfold accepted
  simp only [List.ofFn_eq_map]
  generalize List.finRange m = l
  induction l with
  | nil => rfl
  | cons a l ih =>
    simp only [List.map_cons, List.zip_cons_cons, List.filter_cons]
    by_cases h : t a * b a < c.prob (xs a)
    · simp only [h, decide_true, if_true, List.map_cons, ih]
    · simp only [h, decide_false, Bool.false_eq_true, if_false, ih]

/-- C269.  Any pass of the default (no maximum given), whatever happened before: given the (distinct) proposals `xs` with their weights, no
weight being below a hundred-thousandth of the largest so far, the scaling `σ` of this pass does not depend on the thresholds and covers the
pdf at all proposals, and the proposals are accepted independently of each other, each with the probability `prob / (σ * weight)`: the
probability that exactly those selected by `pat` are accepted is the product of these numbers or one minus these numbers. -/
theorem accepted_independently (c : Cfg E ℝ) (hpm : c.probMax = none) (env : Env E ℝ) (k : ℕ) (s : St E ℝ) {m : ℕ} (xs : Fin m → E)
    (hx : Function.Injective xs) (w : Fin m → ℝ) (wmax : Option (List ℝ)) (nd : ℕ) (hp0 : ∀ j, 0 ≤ c.prob (xs j)) (hw : ∀ j, 0 < w j)
    (hbal : ∀ i j, w i / 100000 ≤ w j) (hs : ∀ j, s.wMax / 100000 ≤ w j) :
    ∃ σ, (∀ t : Fin m → ℝ, (rescale c env k s ⟨List.ofFn xs, List.ofFn t, List.ofFn w, wmax, nd⟩).2.2.1 = σ) ∧
      (∀ j, c.prob (xs j) ≤ σ * w j) ∧
      ∀ pat : Fin m → Bool, Measure.pi (fun _ : Fin m => volume.restrict (Set.Ico (0 : ℝ) 1))
          {t | accepted c ⟨List.ofFn xs, List.ofFn t, List.ofFn w, wmax, nd⟩
              (rescale c env k s ⟨List.ofFn xs, List.ofFn t, List.ofFn w, wmax, nd⟩).1 = ((List.finRange m).filter pat).map xs} =
        ∏ j, ENNReal.ofReal (if pat j then c.prob (xs j) / (σ * w j) else 1 - c.prob (xs j) / (σ * w j)) := by
  obtain ⟨σ, hσ⟩ : ∃ σ, σ = (estimate c s ⟨List.ofFn xs, [], List.ofFn w, wmax, nd⟩).1 := ⟨_, rfl⟩
  have hest : ∀ t : Fin m → ℝ, (estimate c s ⟨List.ofFn xs, List.ofFn t, List.ofFn w, wmax, nd⟩).1 = σ := fun t => by rw [hσ]; rfl
  have hres : ∀ t : Fin m → ℝ, (rescale c env k s ⟨List.ofFn xs, List.ofFn t, List.ofFn w, wmax, nd⟩).1 = List.ofFn (fun j => σ * w j) ∧
      (rescale c env k s ⟨List.ofFn xs, List.ofFn t, List.ofFn w, wmax, nd⟩).2.2.1 = σ := by
    intro t
    have h : rescale c env k s ⟨List.ofFn xs, List.ofFn t, List.ofFn w, wmax, nd⟩ =
        ((List.ofFn w).map (fun v => (estimate c s ⟨List.ofFn xs, List.ofFn t, List.ofFn w, wmax, nd⟩).1 * v),
        if s.scaling = (estimate c s ⟨List.ofFn xs, List.ofFn t, List.ofFn w, wmax, nd⟩).1 then s.nProduced
        else env.binom k s.nProduced (s.scaling / (estimate c s ⟨List.ofFn xs, List.ofFn t, List.ofFn w, wmax, nd⟩).1),
        estimate c s ⟨List.ofFn xs, List.ofFn t, List.ofFn w, wmax, nd⟩) := by
      unfold rescale
      simp only [hpm]
    rw [h, hest]
    exact ⟨by rw [List.map_ofFn]; rfl, rfl⟩
  have hcov : ∀ j, c.prob (xs j) ≤ σ * w j := by
    intro j
    rw [hσ]
    refine ((accept_reject_envelope c s ⟨List.ofFn xs, [], List.ofFn w, wmax, nd⟩).2.2.2 j (xs j) (w j) (by simp) (by simp) (hw j) ?_).1
    have : (estimate c s ⟨List.ofFn xs, [], List.ofFn w, wmax, nd⟩).2.1 ≤ w j * 100000 := by
      refine max_le ?_ (maxOf_le (by have := hw j; positivity) ?_)
      · have := hs j; linarith
      · intro x hx
        obtain ⟨i, rfl⟩ := List.mem_ofFn.1 hx
        have := hbal i j; linarith
    linarith
  refine ⟨σ, fun t => (hres t).2, hcov, fun pat => ?_⟩
  have hprob : IsProbabilityMeasure (volume.restrict (Set.Ico (0 : ℝ) 1)) := ⟨by simp⟩
  have hset : {t : Fin m → ℝ | accepted c ⟨List.ofFn xs, List.ofFn t, List.ofFn w, wmax, nd⟩
      (rescale c env k s ⟨List.ofFn xs, List.ofFn t, List.ofFn w, wmax, nd⟩).1 = ((List.finRange m).filter pat).map xs} =
      Set.pi Set.univ (fun j => if pat j then {u : ℝ | u * (σ * w j) < c.prob (xs j)} else {u : ℝ | u * (σ * w j) < c.prob (xs j)}ᶜ) := by
    ext t
    simp only [Set.mem_setOf_eq, Set.mem_pi, Set.mem_univ, true_implies]
    rw [(hres t).1, accepted_filter, (List.map_injective_iff.2 hx).eq_iff]
    constructor
    · intro h j
      have h1 : j ∈ (List.finRange m).filter (fun j => decide (t j * (σ * w j) < c.prob (xs j))) ↔ j ∈ (List.finRange m).filter pat := by rw [h]
      simp only [List.mem_filter, List.mem_finRange, true_and, decide_eq_true_eq] at h1
      split
      · rename_i hp; exact h1.2 hp
      · rename_i hp; exact fun hc => hp (h1.1 hc)
    · intro h
      apply List.filter_congr
      intro j _
      have := h j
      split at this
      · rename_i hp; simpa [hp] using this
      · rename_i hp
        simp only [Bool.not_eq_true] at hp
        rw [hp, decide_eq_false_iff_not]
        exact this
  rw [hset, Measure.pi_pi]
  refine Finset.prod_congr rfl fun j _ => ?_
  have hms : MeasurableSet {u : ℝ | u * (σ * w j) < c.prob (xs j)} :=
    measurableSet_lt (measurable_id.mul_const _) measurable_const
  split
  · exact threshold_prob _ _ (hp0 j) (hcov j)
  · rw [prob_compl_eq_one_sub hms, threshold_prob _ _ (hp0 j) (hcov j)]
    rw [ENNReal.ofReal_sub _ (div_nonneg (hp0 j) ((hp0 j).trans (hcov j))), ENNReal.ofReal_one]

/-! ## Non-vacuity -/

/-- Uniform proposals in [0, 1], the pdf `x ↦ x` there, its maximum 1 given, five events. -/
noncomputable def exLaw : Cfg ℝ ℝ := ⟨fun x => max 0 (min x 1), 5, some 1, 1 / 2, false, true⟩

theorem exLaw_int : ∫⁻ x in Set.Icc (0 : ℝ) 1, ENNReal.ofReal (exLaw.prob x) ≠ 0 := by
  intro h
  rw [lintegral_eq_zero_iff (by unfold exLaw; fun_prop)] at h
  have h2 : ∀ᵐ x ∂(volume.restrict (Set.Icc (0 : ℝ) 1)), x ≤ 0 := by
    filter_upwards [h] with x hx
    simp only [exLaw, Pi.zero_apply, ENNReal.ofReal_eq_zero] at hx
    by_contra hc
    push Not at hc
    have : 0 < max 0 (min x 1) := lt_max_of_lt_right (lt_min hc one_pos)
    linarith
  rw [ae_iff, Measure.restrict_apply' measurableSet_Icc] at h2
  have h3 : {a : ℝ | ¬a ≤ 0} ∩ Set.Icc 0 1 = Set.Ioc 0 1 := by
    ext x
    simp only [Set.mem_inter_iff, Set.mem_setOf_eq, not_le, Set.mem_Icc, Set.mem_Ioc]
    constructor
    · rintro ⟨h1, -, h2⟩; exact ⟨h1, h2⟩
    · rintro ⟨h1, h2⟩; exact ⟨h1, h1.le, h2⟩
  rw [h3, Real.volume_Ioc] at h2
  simp at h2

/-- It meets the hypotheses of `sample_follows_pdf`: all five events are below 1/2 with the probability (share of [0, 1/2]) to the fifth. -/
example : randomness (volume.restrict (Set.Icc (0 : ℝ) 1)) (fun _ => 1)
      {ω | ∃ fuel r, acceptReject exLaw (streamEnv (fun _ => 1) (some 1) (fun _ n _ => n) id ω) fuel = some (.ok r) ∧ r.length = 5 ∧
        ∀ i < 5, ∃ e ∈ Set.Iio (1 / 2 : ℝ), r[i]? = some e} =
    ∏ _i ∈ Finset.range 5, share (volume.restrict (Set.Icc (0 : ℝ) 1)) exLaw.prob (Set.Iio (1 / 2)) := by
  have : IsProbabilityMeasure ((volume.restrict (Set.Icc (0 : ℝ) 1)).withDensity (fun _ => ENNReal.ofReal 1)) := by
    rw [ENNReal.ofReal_one, show (fun _ : ℝ => (1 : ℝ≥0∞)) = 1 from rfl, withDensity_one]
    exact ⟨by simp⟩
  exact sample_follows_pdf _ (fun _ => 1) exLaw rfl (by norm_num [exLaw]) 1 1 rfl (by norm_num) _ _ (by unfold exLaw; fun_prop)
    (by fun_prop) (fun x => by simp [exLaw]) (fun x => by norm_num) (fun x => by simp [exLaw]) exLaw_int
    (fun _ => Set.Iio (1 / 2)) (fun _ => measurableSet_Iio)

/-- The default: the state after a pass in which the scaling became 5/4 and two events were accepted meets the hypotheses of
`default_sample_follows_pdf_partial`. -/
example (A : ℕ → Set ℝ) (hA : ∀ i, MeasurableSet (A i)) :
    randomness (volume.restrict (Set.Icc (0 : ℝ) 1)) (fun _ => 1)
      {ω | ∃ fuel r, resume { exLaw with probMax := none } (streamEnv (fun _ => 1) (some 1) (fun _ n _ => n) id ω) fuel 1
            ⟨[some (1 / 2), some (1 / 3), none, none, none], 2, 3000, 1 / 1500, 5 / 4, 1, 1⟩ = some (.ok r) ∧ r.length = 5 ∧
        r.take 2 = [1 / 2, 1 / 3] ∧ ∀ i < 3, ∃ e ∈ A i, r[2 + i]? = some e} =
    ∏ i ∈ Finset.range 3, share (volume.restrict (Set.Icc (0 : ℝ) 1)) exLaw.prob (A i) := by
  have : IsProbabilityMeasure ((volume.restrict (Set.Icc (0 : ℝ) 1)).withDensity (fun _ => ENNReal.ofReal 1)) := by
    rw [ENNReal.ofReal_one, show (fun _ : ℝ => (1 : ℝ≥0∞)) = 1 from rfl, withDensity_one]
    exact ⟨by simp⟩
  exact default_sample_follows_pdf_partial _ (fun _ => 1) { exLaw with probMax := none } rfl rfl (some 1) _ _
    (by show Measurable (fun x : ℝ => max 0 (min x 1)); fun_prop)
    (by fun_prop) (fun x => by simp [exLaw]) (fun x => by norm_num) exLaw_int 1
    ⟨[some (1 / 2), some (1 / 3), none, none, none], 2, 3000, 1 / 1500, 5 / 4, 1, 1⟩ (by norm_num)
    (fun x => by
      have : max 0 (min x 1) ≤ (1 : ℝ) := max_le zero_le_one (min_le_right _ _)
      simp only [exLaw]
      linarith) (by norm_num) [1 / 2, 1 / 3] rfl (by simp) rfl (by simp [exLaw]) (by norm_num) (by norm_num) A hA

/-- Three proposals of equal weight with the values 1, 2 and 4 of the pdf in the first pass: the scaling is 5, so that they are accepted with
the probabilities 1/5, 2/5 and 4/5. -/
example : (estimate (⟨fun e : ℕ => if e = 2 then 4 else if e = 1 then 2 else 1, 5, none, 1 / 2, false, true⟩ : Cfg ℕ ℚ)
    ⟨[], 0, 0, 1 / 2, 0, 0, 0⟩ ⟨[0, 1, 2], [], [1, 1, 1], none, 3⟩).1 = 5 := by decide +kernel

end Zfit.Sample
