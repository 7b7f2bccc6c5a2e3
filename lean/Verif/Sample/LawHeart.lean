import Verif.Sample.LawFlow
import Verif.Sample.LawLemmas
import Mathlib.Analysis.SpecificLimits.Basic
import Mathlib.MeasureTheory.Integral.Lebesgue.Map

/-!
# The law of the events returned from a state in which nothing is rescaled any more

`law_of_steady`; the properties themselves are in LawProps.lean.
-/

namespace Zfit.Sample

open Zfit MeasureTheory ENNReal

variable {E : Type} {K : Type} [Field K] [LinearOrder K] [IsStrictOrderedRing K] [FloorRing K]

/-! ## Facts about `flow` -/

theorem mem_picked {M : ℕ × ℕ → Bool} {k m : ℕ} {p : ℕ × ℕ} : p ∈ picked M k m ↔ p.1 = k ∧ p.2 < m ∧ M p = true := by
  unfold picked
  simp only [List.mem_map, List.mem_filter, List.mem_range]
  constructor
  · rintro ⟨j, ⟨h1, h2⟩, rfl⟩
    exact ⟨rfl, h1, h2⟩
  · rintro ⟨h1, h2, h3⟩
    obtain ⟨a, b⟩ := p
    simp only at h1 h2
    subst h1
    exact ⟨b, ⟨h2, h3⟩, rfl⟩

theorem picked_nodup (M : ℕ × ℕ → Bool) (k m : ℕ) : (picked M k m).Nodup := by
  unfold picked
  exact (List.nodup_range.filter _).map (fun a b h => (Prod.mk.inj h).2)

theorem picked_congr {M M' : ℕ × ℕ → Bool} {k m : ℕ} (h : ∀ j < m, M (k, j) = M' (k, j)) : picked M k m = picked M' k m := by
  unfold picked
  congr 1
  apply List.filter_congr
  intro j hj
  exact h j (List.mem_range.1 hj)

/-- The proposals of the passes `k`, ..., `k + fuel - 1`. -/
def window (fuel k : ℕ) : Finset (ℕ × ℕ) := Finset.Ico k (k + fuel) ×ˢ Finset.range 800000

theorem mem_window {fuel k : ℕ} {p : ℕ × ℕ} : p ∈ window fuel k ↔ (k ≤ p.1 ∧ p.1 < k + fuel) ∧ p.2 < 800000 := by
  unfold window
  rw [Finset.mem_product, Finset.mem_Ico, Finset.mem_range]

theorem flow_congr (c : Cfg E K) (M M' : ℕ × ℕ → Bool) (j0 : ℕ) : ∀ (fuel k : ℕ) (idx : List (ℕ × ℕ)) (drawn : ℕ) (eff : K),
    (∀ p ∈ window fuel k, M p = M' p) → flow c M j0 fuel k idx drawn eff = flow c M' j0 fuel k idx drawn eff := by
  intro fuel
  induction fuel with
  | zero => intro k idx drawn eff _; rfl
  | succ fuel ih =>
    intro k idx drawn eff h
    unfold flow
    split
    · rfl
    · split
      · rfl
      · rename_i m hm
        have hle := (nToProduce_le hm).2
        rw [picked_congr (M := M) (M' := M') (fun j hj => h (k, j) (mem_window.2 ⟨⟨le_rfl, by omega⟩, by simp only; omega⟩))]
        apply ih
        intro p hp
        rw [mem_window] at hp
        exact h p (mem_window.2 ⟨⟨by omega, by omega⟩, hp.2⟩)

theorem flow_spec (c : Cfg E K) (M : ℕ × ℕ → Bool) (j0 : ℕ) : ∀ (fuel k : ℕ) (idx : List (ℕ × ℕ)) (drawn : ℕ) (eff : K) (l : List (ℕ × ℕ)),
    idx.Nodup → (∀ p ∈ idx, p.1 < k) → (∀ p ∈ idx, M p = true) → flow c M j0 fuel k idx drawn eff = some l →
      l.Nodup ∧ (∀ p ∈ l, M p = true) ∧ c.n ≤ j0 + l.length := by
  intro fuel
  induction fuel with
  | zero =>
    intro k idx drawn eff l hn _ hM h
    unfold flow at h
    split at h
    · cases h; exact ⟨hn, hM, by assumption⟩
    · cases h
  | succ fuel ih =>
    intro k idx drawn eff l hn hk hM h
    unfold flow at h
    split at h
    · cases h; exact ⟨hn, hM, by assumption⟩
    · split at h
      · cases h
      · refine ih _ _ _ _ _ ?_ ?_ ?_ h
        · rw [List.nodup_append]
          refine ⟨hn, picked_nodup _ _ _, ?_⟩
          rintro a ha b hb rfl
          have h1 := hk a ha
          have h2 := (mem_picked.1 hb).1
          omega
        · intro p hp
          rcases List.mem_append.1 hp with hp | hp
          · have := hk p hp; omega
          · have := (mem_picked.1 hp).1; omega
        · intro p hp
          rcases List.mem_append.1 hp with hp | hp
          · exact hM p hp
          · exact (mem_picked.1 hp).2.2

theorem flow_mono (c : Cfg E K) (M : ℕ × ℕ → Bool) (j0 : ℕ) : ∀ (fuel k : ℕ) (idx : List (ℕ × ℕ)) (drawn : ℕ) (eff : K) (l : List (ℕ × ℕ)),
    flow c M j0 fuel k idx drawn eff = some l → flow c M j0 (fuel + 1) k idx drawn eff = some l := by
  intro fuel
  induction fuel with
  | zero =>
    intro k idx drawn eff l h
    unfold flow at h
    split at h
    · rename_i hc
      unfold flow
      rw [if_pos hc]
      exact h
    · cases h
  | succ fuel ih =>
    intro k idx drawn eff l h
    rw [flow] at h ⊢
    split at h
    · rename_i hc
      rw [if_pos hc]
      exact h
    · rename_i hc
      rw [if_neg hc]
      split at h
      · cases h
      · exact ih _ _ _ _ _ h

theorem flow_ends (c : Cfg E K) (M : ℕ × ℕ → Bool) (j0 : ℕ) (hM : ∀ k0, ∃ k ≥ k0, M (k, 0) = true) :
    ∀ (q k : ℕ) (idx : List (ℕ × ℕ)) (drawn : ℕ) (eff : K), c.n ≤ j0 + idx.length + q → eff ≤ 1 → j0 + idx.length ≤ drawn →
      ∃ fuel l, flow c M j0 fuel k idx drawn eff = some l := by
  intro q
  induction q with
  | zero =>
    intro k idx drawn eff hn _ _
    exact ⟨0, idx, by unfold flow; rw [if_pos (by omega)]⟩
  | succ q ih =>
    intro k
    obtain ⟨k1, hk1, hMk⟩ := hM k
    obtain ⟨d, hd⟩ : ∃ d, d = k1 - k := ⟨_, rfl⟩
    induction d generalizing k with
    | zero =>
      have : k = k1 := by omega
      subst this
      intro idx drawn eff hn he hle
      by_cases hc : c.n ≤ j0 + idx.length
      · exact ⟨0, idx, by unfold flow; rw [if_pos hc]⟩
      · obtain ⟨m, hm⟩ := nToProduce_exists c ⟨[], j0 + idx.length, drawn, eff, 0, 0, 0⟩ (by simpa using hc) he
        have hm0 := (nToProduce_le hm).1
        have hlen : (picked M k m).length ≤ m := by
          unfold picked
          rw [List.length_map]
          exact (List.length_filter_le _ _).trans (by simp)
        have hpos : 0 < (picked M k m).length := List.length_pos_of_mem (mem_picked.2 ⟨rfl, hm0, hMk⟩ : (k, 0) ∈ picked M k m)
        obtain ⟨fuel, l, hl⟩ := ih (k + 1) (idx ++ picked M k m) (drawn + m)
          (max ((j0 + (idx ++ picked M k m).length : ℕ) : K) (1 / 2) / max ((drawn + m : ℕ) : K) 1)
          (by rw [List.length_append]; omega)
          (by
            rw [div_le_one (lt_max_of_lt_right one_pos)]
            apply max_le
            · refine le_max_of_le_left ?_
              rw [List.length_append]
              exact_mod_cast (by omega : j0 + (idx.length + (picked M k m).length) ≤ drawn + m)
            · exact le_max_of_le_right (by norm_num))
          (by rw [List.length_append]; omega)
        refine ⟨fuel + 1, l, ?_⟩
        rw [flow, if_neg hc, hm]
        exact hl
    | succ d ihd =>
      intro idx drawn eff hn he hle
      by_cases hc : c.n ≤ j0 + idx.length
      · exact ⟨0, idx, by unfold flow; rw [if_pos hc]⟩
      · obtain ⟨m, hm⟩ := nToProduce_exists c ⟨[], j0 + idx.length, drawn, eff, 0, 0, 0⟩ (by simpa using hc) he
        have hlen : (picked M k m).length ≤ m := by
          unfold picked
          rw [List.length_map]
          exact (List.length_filter_le _ _).trans (by simp)
        obtain ⟨fuel, l, hl⟩ := ihd (k + 1) (by omega) (by omega) (idx ++ picked M k m) (drawn + m)
          (max ((j0 + (idx ++ picked M k m).length : ℕ) : K) (1 / 2) / max ((drawn + m : ℕ) : K) 1)
          (by rw [List.length_append]; omega)
          (by
            rw [div_le_one (lt_max_of_lt_right one_pos)]
            apply max_le
            · refine le_max_of_le_left ?_
              rw [List.length_append]
              exact_mod_cast (by omega : j0 + (idx.length + (picked M k m).length) ≤ drawn + m)
            · exact le_max_of_le_right (by norm_num))
          (by rw [List.length_append]; omega)
        refine ⟨fuel + 1, l, ?_⟩
        rw [flow, if_neg hc, hm]
        exact hl

theorem finish_take (c : Cfg E K) (env : Env E K) (hmult : c.multipleLimits = false) (s : St E K) (xs : List E)
    (h : s.arr.take c.n = xs.map some) : finish c env s = .ok xs := by
  unfold finish
  simp only [hmult, Bool.false_eq_true, if_false, h]
  clear h
  induction xs with
  | nil => rfl
  | cons x xs ih => simp only [List.map_cons, List.mapM_cons, ih]; rfl

theorem resume_flow (c : Cfg E K) (hmult : c.multipleLimits = false) (w : E → K) (wmax : Option K) (binom) (shuffle) (ω : ℕ × ℕ → E × K)
    (b : E → K) (I : St E K → Prop) (hst : Steady c (streamEnv w wmax binom shuffle ω) b I) (old : List E) (fuel k : ℕ) (s : St E K)
    (hs : I s) (hn : s.nProduced = old.length) (hl : s.nProduced ≤ s.arr.length) (harr : s.arr.take s.nProduced = old.map some) (r : List E) :
    resume c (streamEnv w wmax binom shuffle ω) fuel k s = some (.ok r) ↔
      ∃ l, flow c (fun p => decide ((ω p).2 * b (ω p).1 < c.prob (ω p).1)) old.length fuel k [] s.nDrawn s.eff = some l ∧
        r = (old ++ l.map (fun p => (ω p).1)).take c.n := by
  have := loop_flow c w wmax binom shuffle ω b I hst (old.map some) fuel k [] s hs (by simp [hn]) hl (by simp [harr])
  rw [List.length_map] at this
  unfold resume
  rcases hf : flow c (fun p => decide ((ω p).2 * b (ω p).1 < c.prob (ω p).1)) old.length fuel k [] s.nDrawn s.eff with _ | l
  · rw [hf] at this
    simp only at this
    constructor
    · intro h
      split at h
      · cases h
      · cases h
      · rename_i t ht
        exact absurd ht (this t)
    · rintro ⟨l, hl, -⟩
      cases hl
  · rw [hf] at this
    simp only at this
    obtain ⟨t, ht, hcn, hta⟩ := this
    rw [ht]
    simp only
    have hfin : finish c (streamEnv w wmax binom shuffle ω) t = .ok ((old ++ l.map (fun p => (ω p).1)).take c.n) := by
      apply finish_take c _ hmult
      have := congrArg (List.take c.n) hta
      rw [List.take_take, min_eq_left hcn] at this
      rw [this, List.map_take, List.map_append, List.map_map]
      rfl
    rw [hfin]
    simp only [Option.some.injEq, Except.ok.injEq]
    constructor
    · intro h; exact ⟨l, rfl, h.symm⟩
    · rintro ⟨l', rfl, h⟩; exact h.symm

/-! ## Probabilities -/

section Prob

variable [MeasurableSpace E]

/-- The accepted proposals with their thresholds. -/
def accSet (p b : E → ℝ) : Set (E × ℝ) := {x | x.2 * b x.1 < p x.1}

theorem measurable_accSet {p b : E → ℝ} (hp : Measurable p) (hb : Measurable b) : MeasurableSet (accSet p b) :=
  measurableSet_lt (measurable_snd.mul (hb.comp measurable_fst)) (hp.comp measurable_fst)

theorem threshold_prob (p b : ℝ) (hp : 0 ≤ p) (hpb : p ≤ b) :
    (volume.restrict (Set.Ico (0 : ℝ) 1)) {t | t * b < p} = ENNReal.ofReal (p / b) := by
  rcases hp.eq_or_lt with rfl | hp
  · have : {t : ℝ | t * b < 0} ∩ Set.Ico 0 1 = ∅ := by
      ext t
      simp only [Set.mem_inter_iff, Set.mem_setOf_eq, Set.mem_Ico, Set.mem_empty_iff_false, iff_false, not_and, not_lt]
      intro h h2
      exact absurd h (not_lt.2 (mul_nonneg h2 hpb))
    rw [Measure.restrict_apply' measurableSet_Ico, this]
    simp
  · have hb : 0 < b := lt_of_lt_of_le hp hpb
    have : {t : ℝ | t * b < p} ∩ Set.Ico 0 1 = Set.Ico 0 (p / b) := by
      ext t
      simp only [Set.mem_inter_iff, Set.mem_setOf_eq, Set.mem_Ico]
      rw [← lt_div_iff₀ hb]
      have h1 : p / b ≤ 1 := (div_le_one hb).2 hpb
      constructor
      · rintro ⟨h, h0, -⟩; exact ⟨h0, h⟩
      · rintro ⟨h0, h⟩; exact ⟨h, h0, lt_of_lt_of_le h h1⟩
    rw [Measure.restrict_apply' measurableSet_Ico, this, Real.volume_Ico, sub_zero]

theorem accepted_in (μ : Measure E) (p w : E → ℝ) (σ : ℝ) (hσ : 0 < σ) (hp : Measurable p) (hw : Measurable w) (hp0 : ∀ x, 0 ≤ p x)
    (hw0 : ∀ x, 0 ≤ w x) (hpw : ∀ x, p x ≤ σ * w x) (A : Set E) (hA : MeasurableSet A) :
    proposalLaw μ w (accSet p (fun x => σ * w x) ∩ {x | x.1 ∈ A}) = (∫⁻ x in A, ENNReal.ofReal (p x) ∂μ) * ENNReal.ofReal σ⁻¹ := by
  have hms : MeasurableSet (accSet p (fun x => σ * w x) ∩ {x : E × ℝ | x.1 ∈ A}) :=
    (measurable_accSet hp (hw.const_mul σ)).inter (measurable_fst hA)
  unfold proposalLaw
  rw [Measure.prod_apply hms, lintegral_withDensity_eq_lintegral_mul _ (hw.ennreal_ofReal) (measurable_measure_prodMk_left hms),
    ← lintegral_mul_const _ (by fun_prop), ← lintegral_indicator hA]
  refine lintegral_congr fun x => ?_
  simp only [Pi.mul_apply]
  by_cases hx : x ∈ A
  · have : Prod.mk x ⁻¹' (accSet p (fun x => σ * w x) ∩ {x : E × ℝ | x.1 ∈ A}) = {t | t * (σ * w x) < p x} := by
      ext t
      simp [accSet, hx]
    rw [this, threshold_prob _ _ (hp0 x) (hpw x), Set.indicator_of_mem hx, ← ENNReal.ofReal_mul (hw0 x), ← ENNReal.ofReal_mul (hp0 x)]
    congr 1
    rcases (hw0 x).eq_or_lt with h | h
    · have h1 := hpw x
      rw [← h, mul_zero] at h1
      have : p x = 0 := le_antisymm h1 (hp0 x)
      rw [this, ← h]; simp
    · field_simp
  · have : Prod.mk x ⁻¹' (accSet p (fun x => σ * w x) ∩ {x : E × ℝ | x.1 ∈ A}) = ∅ := by
      ext t
      simp [hx]
    rw [this, Set.indicator_of_notMem hx]
    simp

theorem accepted_share (μ : Measure E) (p w : E → ℝ) (σ : ℝ) (hσ : 0 < σ) (hp : Measurable p) (hw : Measurable w) (hp0 : ∀ x, 0 ≤ p x)
    (hw0 : ∀ x, 0 ≤ w x) (hpw : ∀ x, p x ≤ σ * w x) (A : Set E) (hA : MeasurableSet A) :
    proposalLaw μ w (accSet p (fun x => σ * w x) ∩ {x | x.1 ∈ A}) / proposalLaw μ w (accSet p (fun x => σ * w x)) = share μ p A := by
  have h1 := accepted_in μ p w σ hσ hp hw hp0 hw0 hpw A hA
  have h2 := accepted_in μ p w σ hσ hp hw hp0 hw0 hpw Set.univ MeasurableSet.univ
  simp only [Set.mem_univ, Set.setOf_true, Set.inter_univ, Measure.restrict_univ] at h2
  rw [h1, h2]
  unfold share
  rw [ENNReal.mul_div_mul_right]
  · exact (ENNReal.ofReal_pos.2 (inv_pos.2 hσ)).ne'
  · exact ENNReal.ofReal_ne_top

theorem often_accepted {X : Type} [MeasurableSpace X] (P : Measure X) [IsProbabilityMeasure P] {acc : Set X} (hacc : MeasurableSet acc)
    (h0 : P acc ≠ 0) : Measure.infinitePi (fun _ : ℕ × ℕ => P) {ω | ∀ k0, ∃ k ≥ k0, ω (k, 0) ∈ acc}ᶜ = 0 := by
  have hsub : {ω : ℕ × ℕ → X | ∀ k0, ∃ k ≥ k0, ω (k, 0) ∈ acc}ᶜ = ⋃ k0 : ℕ, {ω | ∀ k ≥ k0, ω (k, 0) ∉ acc} := by
    ext ω
    simp
  rw [hsub, measure_iUnion_null_iff]
  intro k0
  have hlt : P accᶜ < 1 := by
    rw [prob_compl_eq_one_sub hacc]
    exact ENNReal.sub_lt_self one_ne_top one_ne_zero h0
  have hle : ∀ L : ℕ, Measure.infinitePi (fun _ : ℕ × ℕ => P) {ω | ∀ k ≥ k0, ω (k, 0) ∉ acc} ≤ P accᶜ ^ L := by
    intro L
    have hbox : {ω : ℕ × ℕ → X | ∀ k ≥ k0, ω (k, 0) ∉ acc} ⊆
        Set.pi (((Finset.Ico k0 (k0 + L)).map ⟨fun k => (k, 0), fun a b h => (Prod.mk.inj h).1⟩ : Finset (ℕ × ℕ)) : Set (ℕ × ℕ))
          (fun _ => accᶜ) := by
      intro ω hω p hp
      simp only [Finset.coe_map, Function.Embedding.coeFn_mk, Set.mem_image, Finset.coe_Ico, Set.mem_Ico] at hp
      obtain ⟨k, ⟨hk, -⟩, rfl⟩ := hp
      exact hω k hk
    refine (measure_mono hbox).trans ?_
    rw [Measure.infinitePi_pi _ (fun _ _ => hacc.compl)]
    simp
  refine le_antisymm (ge_of_tendsto' (ENNReal.tendsto_pow_atTop_nhds_zero_of_lt_one hlt) hle) zero_le

open Classical in
/-- The heart: from loop variables with which nothing is rescaled any more. -/
theorem law_of_steady (μ : Measure E) (w : E → ℝ) [IsProbabilityMeasure (μ.withDensity (fun x => ENNReal.ofReal (w x)))]
    (c : Cfg E ℝ) (hmult : c.multipleLimits = false) (wmax : Option ℝ) (binom) (shuffle) (σ : ℝ) (hσ : 0 < σ) (hp : Measurable c.prob)
    (hw : Measurable w) (hp0 : ∀ x, 0 ≤ c.prob x) (hw0 : ∀ x, 0 ≤ w x) (hpw : ∀ x, c.prob x ≤ σ * w x)
    (hpos : ∫⁻ x, ENNReal.ofReal (c.prob x) ∂μ ≠ 0) (I : St E ℝ → Prop)
    (hst : ∀ ω, Steady c (streamEnv w wmax binom shuffle ω) (fun x => σ * w x) I) (k : ℕ) (s : St E ℝ) (hs : I s) (old : List E)
    (hn : s.nProduced = old.length) (hl : s.nProduced ≤ s.arr.length) (harr : s.arr.take s.nProduced = old.map some) (hle : old.length ≤ c.n)
    (heff : s.eff ≤ 1) (hdrawn : s.nProduced ≤ s.nDrawn) (A : ℕ → Set E) (hA : ∀ i, MeasurableSet (A i)) :
    randomness μ w {ω | ∃ fuel r, resume c (streamEnv w wmax binom shuffle ω) fuel k s = some (.ok r) ∧ r.length = c.n ∧
        r.take old.length = old ∧ ∀ i < c.n - old.length, ∃ e ∈ A i, r[old.length + i]? = some e} =
      ∏ i ∈ Finset.range (c.n - old.length), share μ c.prob (A i) := by
  have hP : IsProbabilityMeasure (proposalLaw μ w) := by
    unfold proposalLaw
    have : IsProbabilityMeasure (volume.restrict (Set.Ico (0 : ℝ) 1)) := ⟨by simp⟩
    infer_instance
  obtain ⟨acc, hacc⟩ : ∃ acc, acc = accSet c.prob (fun x => σ * w x) := ⟨_, rfl⟩
  have hmacc : MeasurableSet acc := by rw [hacc]; exact measurable_accSet hp (hw.const_mul σ)
  have hacc0 : proposalLaw μ w acc ≠ 0 := by
    have h2 := accepted_in μ c.prob w σ hσ hp hw hp0 hw0 hpw Set.univ MeasurableSet.univ
    simp only [Set.mem_univ, Set.setOf_true, Set.inter_univ, Measure.restrict_univ] at h2
    rw [hacc, h2]
    exact mul_ne_zero hpos (ENNReal.ofReal_pos.2 (inv_pos.2 hσ)).ne'
  obtain ⟨F, hFdef⟩ : ∃ F : ℕ → Finset (ℕ × ℕ) → Option (List (ℕ × ℕ)), F = fun fuel T =>
      flow c (fun p => decide (p ∈ T)) old.length fuel k [] s.nDrawn s.eff := ⟨_, rfl⟩
  -- the flow in terms of the accepted numbers
  have hflow : ∀ fuel (ω : ℕ × ℕ → E × ℝ),
      flow c (fun p => decide ((ω p).2 * (σ * w (ω p).1) < c.prob (ω p).1)) old.length fuel k [] s.nDrawn s.eff =
        F fuel (acceptedNumbers acc (window fuel k) ω) := by
    intro fuel ω
    rw [hFdef]
    refine flow_congr c _ _ _ fuel k [] s.nDrawn s.eff ?_
    intro p hp
    rw [decide_eq_decide, mem_acceptedNumbers, hacc]
    simp only [hp, true_and]
    rfl
  have hF : ∀ fuel T l, T ⊆ window fuel k → F fuel T = some l → l.Nodup ∧ (∀ p ∈ l, p ∈ T) ∧ c.n - old.length ≤ l.length := by
    intro fuel T l _ h
    rw [hFdef] at h
    obtain ⟨h1, h2, h3⟩ := flow_spec c _ _ fuel k [] s.nDrawn s.eff l List.nodup_nil (by simp) (by simp) h
    exact ⟨h1, fun p hp => by simpa using h2 p hp, by omega⟩
  -- the events for a number of passes
  obtain ⟨G, hG⟩ : ∃ G : (ℕ → Set E) → ℕ → Set (ℕ × ℕ → E × ℝ), G = fun B fuel =>
      {ω | ∃ l, F fuel (acceptedNumbers acc (window fuel k) ω) = some l ∧
        ∀ i < c.n - old.length, ∀ p, l[i]? = some p → ω p ∈ {x : E × ℝ | x.1 ∈ B i}} := ⟨_, rfl⟩
  have hlaw : ∀ fuel (B : ℕ → Set E), (∀ i, MeasurableSet (B i)) → randomness μ w (G B fuel) =
      randomness μ w {ω | ∃ l, F fuel (acceptedNumbers acc (window fuel k) ω) = some l} *
        ∏ i ∈ Finset.range (c.n - old.length), share μ c.prob (B i) := by
    intro fuel B hB
    rw [hG]
    have := law_of_picks (proposalLaw μ w) hmacc hacc0 (window fuel k) (F fuel) (c.n - old.length) (hF fuel)
      (fun i => {x : E × ℝ | x.1 ∈ B i}) (fun i => measurable_fst (hB i))
    refine this.trans ?_
    congr 1
    refine Finset.prod_congr rfl fun i _ => ?_
    rw [hacc]
    exact accepted_share μ c.prob w σ hσ hp hw hp0 hw0 hpw (B i) (hB i)
  have hset : {ω | ∃ fuel r, resume c (streamEnv w wmax binom shuffle ω) fuel k s = some (.ok r) ∧ r.length = c.n ∧
        r.take old.length = old ∧ ∀ i < c.n - old.length, ∃ e ∈ A i, r[old.length + i]? = some e} = ⋃ fuel, G A fuel := by
    ext ω
    simp only [Set.mem_setOf_eq, Set.mem_iUnion]
    refine exists_congr fun fuel => ?_
    rw [hG]
    simp only [Set.mem_setOf_eq]
    constructor
    · rintro ⟨r, hr, -, -, hri⟩
      rw [resume_flow c hmult w wmax binom shuffle ω _ I (hst ω) old fuel k s hs hn hl harr, hflow] at hr
      obtain ⟨l, hfl, rfl⟩ := hr
      refine ⟨l, hfl, fun i hi q hq => ?_⟩
      obtain ⟨e, heA, he⟩ := hri i hi
      rw [List.getElem?_take_of_lt (by omega), List.getElem?_append_right (by omega), Nat.add_sub_cancel_left, List.getElem?_map, hq] at he
      simp only [Option.map_some, Option.some.injEq] at he
      rw [he]; exact heA
    · rintro ⟨l, hfl, hB⟩
      have h3 := (hF fuel _ l (fun p hp => (mem_acceptedNumbers.1 hp).1) hfl).2.2
      refine ⟨(old ++ l.map (fun p => (ω p).1)).take c.n, ?_, ?_, ?_, ?_⟩
      · rw [resume_flow c hmult w wmax binom shuffle ω _ I (hst ω) old fuel k s hs hn hl harr, hflow]
        exact ⟨l, hfl, rfl⟩
      · simp only [List.length_take, List.length_append, List.length_map]; omega
      · rw [List.take_take, min_eq_left hle, List.take_left']
        rfl
      · intro i hi
        have hil : i < l.length := by omega
        refine ⟨(ω l[i]).1, hB i hi _ (List.getElem?_eq_getElem hil), ?_⟩
        rw [List.getElem?_take_of_lt (by omega), List.getElem?_append_right (by omega), Nat.add_sub_cancel_left, List.getElem?_map,
          List.getElem?_eq_getElem hil]
        rfl
  have hmono : ∀ B, Monotone (G B) := by
    intro B
    refine monotone_nat_of_le_succ fun fuel => ?_
    intro ω
    rw [hG]
    simp only [Set.mem_setOf_eq]
    rintro ⟨l, hfl, hB⟩
    rw [← hflow] at hfl
    exact ⟨l, by rw [← hflow]; exact flow_mono c _ _ fuel k [] s.nDrawn s.eff l hfl, hB⟩
  have hends : randomness μ w (⋃ fuel, G (fun _ => Set.univ) fuel) = 1 := by
    have hPr : IsProbabilityMeasure (randomness μ w) := by unfold randomness; infer_instance
    refine le_antisymm prob_le_one ?_
    have h1 : {ω : ℕ × ℕ → E × ℝ | ∀ k0, ∃ k ≥ k0, ω (k, 0) ∈ acc} ⊆ ⋃ fuel, G (fun _ => Set.univ) fuel := by
      intro ω hω
      obtain ⟨fuel, l, hfl⟩ := flow_ends c (fun p => decide ((ω p).2 * (σ * w (ω p).1) < c.prob (ω p).1)) old.length (by
        intro k0
        obtain ⟨k1, hk1, hk2⟩ := hω k0
        rw [hacc] at hk2
        exact ⟨k1, hk1, by simpa [accSet] using hk2⟩) c.n k [] s.nDrawn s.eff (by simp) heff (by simp; omega)
      rw [hflow] at hfl
      rw [Set.mem_iUnion]
      refine ⟨fuel, ?_⟩
      rw [hG]
      exact ⟨l, hfl, fun _ _ _ _ => trivial⟩
    refine le_trans ?_ (measure_mono h1)
    have h2 := often_accepted (proposalLaw μ w) hmacc hacc0
    have h3 : randomness μ w Set.univ ≤ randomness μ w {ω | ∀ k0, ∃ k ≥ k0, ω (k, 0) ∈ acc} +
        randomness μ w {ω | ∀ k0, ∃ k ≥ k0, ω (k, 0) ∈ acc}ᶜ := by
      rw [← Set.union_compl_self {ω : ℕ × ℕ → E × ℝ | ∀ k0, ∃ k ≥ k0, ω (k, 0) ∈ acc}]
      exact measure_union_le _ _
    rw [measure_univ] at h3
    unfold randomness at h3 ⊢
    rw [h2, add_zero] at h3
    exact h3
  rw [hset, (hmono A).measure_iUnion]
  have hsup : (⨆ fuel, randomness μ w {ω | ∃ l, F fuel (acceptedNumbers acc (window fuel k) ω) = some l}) = 1 := by
    rw [← hends, (hmono _).measure_iUnion]
    refine iSup_congr fun fuel => ?_
    rw [hG]
    simp
  rw [iSup_congr (fun fuel => hlaw fuel A hA), ← ENNReal.iSup_mul, hsup, one_mul]

end Prob

end Zfit.Sample
