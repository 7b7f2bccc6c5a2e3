import Verif.Sample.LawPieces
import Mathlib.Probability.ConditionalProbability

/-!
# Property C275: samples on several limits by a multinomial split

If a model cannot sample several limits at once, the number of events is split between them by a multinomial draw with the analytic integrals
and each of them is sampled on its own (basemodel.py:1210-1234).

* C275 `limits_sample_law`
-/

namespace Zfit.Sample

open Zfit MeasureTheory ENNReal ProbabilityTheory

/-- The law of one of `m` labels with given probabilities. -/
noncomputable def labelLaw {m : ℕ} (fr : Fin m → ℝ) : Measure (Fin m) := ∑ i, ENNReal.ofReal (fr i) • Measure.dirac i

/-- How often each label occurs. -/
def countsOf {n m : ℕ} (I : Fin n → Fin m) : List ℕ := List.ofFn fun i => (Finset.univ.filter fun k => I k = i).card

/-- A multinomial draw with the probabilities `fr`: the numbers of occurrences of the labels in `n` independent draws of one label. -/
def IsMultinomial {Ω : Type} [MeasurableSpace Ω] (n : ℕ) {m : ℕ} (fr : Fin m → ℝ) (τ : Measure Ω) (draw : Ω → List ℕ) : Prop :=
  ∀ c, MeasurableSet {t | draw t = c} ∧ τ {t | draw t = c} = Measure.pi (fun _ : Fin n => labelLaw fr) {I | countsOf I = c}

section Product

variable {E : Type} [MeasurableSpace E]

theorem pi_mixture {n m : ℕ} (c : Fin m → ℝ≥0∞) (hc : ∀ i, c i ≠ ∞) (μ : Fin m → Measure E) [∀ i, IsProbabilityMeasure (μ i)] :
    Measure.pi (fun _ : Fin n => ∑ i, c i • μ i) = ∑ I : Fin n → Fin m, (∏ k, c (I k)) • Measure.pi (fun k => μ (I k)) := by
  have hfin : IsFiniteMeasure (∑ i, c i • μ i) := by
    constructor
    simp only [Measure.coe_finset_sum, Finset.sum_apply, Measure.smul_apply, smul_eq_mul, measure_univ, mul_one]
    exact ENNReal.sum_lt_top.2 fun i _ => (hc i).lt_top
  refine Measure.pi_eq fun s hs => ?_
  simp only [Measure.coe_finset_sum, Finset.sum_apply, Measure.smul_apply, smul_eq_mul, Measure.pi_pi]
  rw [Finset.prod_univ_sum]
  simp only [Fintype.piFinset_univ, Finset.prod_mul_distrib]

theorem stream_law {ι : Type} {n : ℕ} {Ω : Type} [MeasurableSpace Ω] (ρ : Measure Ω) [IsProbabilityMeasure ρ] (gen : ι → Ω → E)
    (hgen : ∀ i, Measurable (gen i)) (g : Fin n → ι × ℕ) (hg : Function.Injective g) :
    (Measure.infinitePi fun _ : ι × ℕ => ρ).map (fun ω k => gen (g k).1 (ω (g k))) = Measure.pi (fun k => ρ.map (gen (g k).1)) := by
  classical
  have : ∀ k, IsProbabilityMeasure (ρ.map (gen (g k).1)) := fun k => Measure.isProbabilityMeasure_map (hgen _).aemeasurable
  symm
  refine Measure.pi_eq fun s hs => ?_
  have hmeas : Measurable (fun (ω : ι × ℕ → Ω) k => gen (g k).1 (ω (g k))) :=
    measurable_pi_lambda _ fun k => (hgen (g k).1).comp (measurable_pi_apply (g k))
  rw [Measure.map_apply hmeas (MeasurableSet.univ_pi hs)]
  have hpre : (fun (ω : ι × ℕ → Ω) k => gen (g k).1 (ω (g k))) ⁻¹' Set.pi Set.univ s =
      Set.pi (Finset.univ.image g : Finset (ι × ℕ)) (fun p => {x | ∀ k, g k = p → gen p.1 x ∈ s k}) := by
    ext ω
    simp only [Set.mem_preimage, Set.mem_pi, Set.mem_univ, true_imp_iff, Finset.coe_image, Finset.coe_univ, Set.image_univ, Set.mem_range,
      forall_exists_index, Set.mem_setOf_eq]
    constructor
    · intro h p k hk k' hk'
      subst hk
      have := hg hk'
      subst this
      exact h _
    · intro h k
      exact h (g k) k rfl k rfl
  have hset : ∀ k, {x | ∀ k', g k' = g k → gen (g k).1 x ∈ s k'} = gen (g k).1 ⁻¹' s k := by
    intro k
    ext x
    simp only [Set.mem_setOf_eq, Set.mem_preimage]
    constructor
    · intro h; exact h k rfl
    · intro h k' hk'
      have := hg hk'
      subst this
      exact h
  rw [hpre, Measure.infinitePi_pi, Finset.prod_image (fun a _ b _ h => hg h)]
  · refine Finset.prod_congr rfl fun k _ => ?_
    rw [hset, Measure.map_apply (hgen _) (hs k)]
  · intro p hp
    obtain ⟨k, -, rfl⟩ := Finset.mem_image.1 hp
    rw [hset]
    exact hgen _ (hs k)

end Product

section Order

/-- Numbering the draws by their label and their number within the label. -/
theorem exists_numbering {n m : ℕ} (I : Fin n → Fin m) :
    ∃ g : Fin n → Fin m × ℕ, Function.Injective g ∧ (∀ k, (g k).1 = I k) ∧
      (List.ofFn g).Perm ((List.finRange m).flatMap fun i : Fin m => (List.range ((countsOf I).getD i 0)).map fun j => (i, j)) := by
  classical
  have hcount : ∀ i : Fin m, (countsOf I).getD i 0 = Fintype.card {k // I k = i} := by
    intro i
    unfold countsOf
    rw [List.getD_eq_getElem?_getD, List.getElem?_eq_getElem (by simp), Option.getD_some, List.getElem_ofFn, Fintype.card_subtype]
  let e : ∀ i, {k // I k = i} ≃ Fin (Fintype.card {k // I k = i}) := fun i => Fintype.equivFin _
  let g : Fin n → Fin m × ℕ := fun k => (I k, (e (I k) ⟨k, rfl⟩ : ℕ))
  have hinj : Function.Injective g := by
    intro a b h
    obtain ⟨h1, h2⟩ := Prod.mk.inj h
    have key : ∀ (i : Fin m) (ha : I a = i) (hb : I b = i), (e i ⟨a, ha⟩ : ℕ) = e i ⟨b, hb⟩ → a = b := by
      intro i ha hb hab
      have := (e i).injective (Fin.ext hab)
      exact congrArg Subtype.val this
    refine key (I b) h1 rfl ?_
    have : ∀ (i : Fin m) (hi : I a = i), (e (I a) ⟨a, rfl⟩ : ℕ) = e i ⟨a, hi⟩ := by
      intro i hi; subst hi; rfl
    rw [← this (I b) h1]
    exact h2
  refine ⟨g, hinj, fun k => rfl, ?_⟩
  rw [List.perm_ext_iff_of_nodup]
  · rintro ⟨i, j⟩
    simp only [List.mem_ofFn, List.mem_flatMap, List.mem_finRange, true_and, List.mem_map, List.mem_range, hcount]
    constructor
    · rintro ⟨k, hk⟩
      obtain ⟨h1, h2⟩ := Prod.mk.inj hk
      refine ⟨I k, (e (I k) ⟨k, rfl⟩ : ℕ), (e (I k) ⟨k, rfl⟩).2, hk⟩
    · rintro ⟨i', j', hj, hij⟩
      obtain ⟨rfl, rfl⟩ := Prod.mk.inj hij
      obtain ⟨⟨k, hk⟩, hkj⟩ := (e i').surjective ⟨j', hj⟩
      subst hk
      exact ⟨k, Prod.ext rfl (congrArg Fin.val hkj)⟩
  · exact List.nodup_ofFn.2 hinj
  · rw [List.nodup_flatMap]
    refine ⟨fun i _ => List.nodup_range.map (fun a b h => (Prod.mk.inj h).2), ?_⟩
    refine (List.nodup_finRange m).imp ?_
    intro a b hab
    simp only [Function.onFun, List.disjoint_left, List.mem_map, not_exists, not_and, forall_exists_index, and_imp]
    rintro p j - rfl j' - h
    exact hab (Prod.mk.inj h).1.symm

end Order

section Law

variable {E Ω Ω' : Type} [MeasurableSpace E] [MeasurableSpace Ω] [MeasurableSpace Ω']

/-- The events drawn in the pieces, as numbers of the stream. -/
def drawn {m : ℕ} (c : List ℕ) : List (Fin m × ℕ) := ((List.finRange m).zip c).flatMap fun t => (List.range t.2).map fun j => (t.1, j)

theorem limitsSample_eq {m : ℕ} (gen : Fin m → Ω → E) (is : List ℝ) (counts : List ℝ → List ℕ) (n : ℕ) (ω : Fin m × ℕ → Ω) :
    limitsSample (fun _ => .error .multipleLimitsNotImplemented) (fun i k => .ok ((List.range k).map fun j => gen i (ω (i, j)))) (.ok is)
      counts n (List.finRange m) = .ok ((drawn (counts (is.map (· / is.sum)))).map fun p => gen p.1 (ω p)) := by
  unfold limitsSample drawn
  simp only
  generalize (List.finRange m).zip (counts (is.map (· / is.sum))) = L
  have : L.mapM (fun t => (Except.ok ((List.range t.2).map fun j => gen t.1 (ω (t.1, j))) : Except Err (List E))) =
      .ok (L.map fun t => (List.range t.2).map fun j => gen t.1 (ω (t.1, j))) := by
    induction L with
    | nil => rfl
    | cons a L ih => rw [List.mapM_cons, ih]; rfl
  rw [this]
  simp only [except_bind_ok, List.map_flatMap, List.map_map, List.flatMap_def]
  have hmap : (fun t : Fin m × ℕ => (List.range t.2).map fun j => gen t.1 (ω (t.1, j))) =
      fun t => ((List.range t.2).map fun j => (t.1, j)).map fun p => gen p.1 (ω p) := by
    funext t
    rw [List.map_map]
    rfl
  rw [hmap, List.map_flatten, List.map_map]
  rfl

theorem drawn_countsOf {n m : ℕ} (I : Fin n → Fin m) : drawn (countsOf I) =
    (List.finRange m).flatMap fun i : Fin m => (List.range ((countsOf I).getD i 0)).map fun j => (i, j) := by
  have hz : (List.finRange m).zip (countsOf I) = (List.finRange m).map (fun i : Fin m => (i, (countsOf I).getD i 0)) := by
    have hl : (countsOf I).length = m := by simp [countsOf]
    apply List.ext_getElem
    · simp [hl]
    · intro i h1 h2
      simp only [List.getElem_zip, List.getElem_map, List.getElem_finRange, List.getD_eq_getElem?_getD]
      have hi : i < (countsOf I).length := by simp at h1; omega
      simp [List.getElem?_eq_getElem hi]
  unfold drawn
  rw [hz, List.flatMap_map]

theorem measurable_drawn {m : ℕ} (gen : Fin m → Ω → E) (hgen : ∀ i, Measurable (gen i)) (B : Set (List E))
    (hB : ∀ k, MeasurableSet {x : Fin k → E | List.ofFn x ∈ B}) (l : List (Fin m × ℕ)) :
    MeasurableSet {ω : Fin m × ℕ → Ω | (l.map fun p => gen p.1 (ω p)) ∈ B} := by
  have hmeas : Measurable (fun (ω : Fin m × ℕ → Ω) (k : Fin l.length) => gen l[k].1 (ω l[k])) :=
    measurable_pi_lambda _ fun k => (hgen l[k].1).comp (measurable_pi_apply l[k])
  have : {ω : Fin m × ℕ → Ω | (l.map fun p => gen p.1 (ω p)) ∈ B} =
      (fun (ω : Fin m × ℕ → Ω) (k : Fin l.length) => gen l[k].1 (ω l[k])) ⁻¹' {x : Fin l.length → E | List.ofFn x ∈ B} := by
    ext ω
    simp only [Set.mem_setOf_eq, Set.mem_preimage]
    have : List.ofFn (fun k : Fin l.length => gen l[k].1 (ω l[k])) = l.map fun p => gen p.1 (ω p) := by
      apply List.ext_getElem <;> simp
    rw [this]
  rw [this]
  exact hmeas (hB _)

theorem labelLaw_singleton {m : ℕ} (fr : Fin m → ℝ) (i : Fin m) : labelLaw fr {i} = ENNReal.ofReal (fr i) := by
  unfold labelLaw
  simp only [Measure.coe_finset_sum, Finset.sum_apply, Measure.smul_apply, smul_eq_mul]
  rw [Finset.sum_eq_single i]
  · simp
  · intro j _ hj
    simp [hj]
  · simp

theorem lintegral_multinomial {n m : ℕ} (fr : Fin m → ℝ) (τ : Measure Ω') (draw : Ω' → List ℕ) (h : IsMultinomial n fr τ draw)
    (f : List ℕ → ℝ≥0∞) : ∫⁻ t, f (draw t) ∂τ = ∑ I : Fin n → Fin m, (∏ k, ENNReal.ofReal (fr (I k))) * f (countsOf I) := by
  have hfin : IsFiniteMeasure (labelLaw fr) := by
    constructor
    unfold labelLaw
    simp only [Measure.coe_finset_sum, Finset.sum_apply, Measure.smul_apply, smul_eq_mul, measure_univ, mul_one]
    exact ENNReal.sum_lt_top.2 fun i _ => ENNReal.ofReal_lt_top
  letI : MeasurableSpace (List ℕ) := ⊤
  haveI : MeasurableSingletonClass (List ℕ) := ⟨fun _ => trivial⟩
  have hd : Measurable draw := measurable_to_countable' fun c => (h c).1
  have hc : Measurable (countsOf : (Fin n → Fin m) → List ℕ) := measurable_of_countable _
  have hmap : τ.map draw = (Measure.pi (fun _ : Fin n => labelLaw fr)).map countsOf := by
    refine Measure.ext_of_singleton fun c => ?_
    rw [Measure.map_apply hd (measurableSet_singleton c), Measure.map_apply hc (measurableSet_singleton c)]
    exact (h c).2
  rw [← lintegral_map (measurable_of_countable f) hd, hmap, lintegral_map (measurable_of_countable f) hc, lintegral_fintype]
  refine Finset.sum_congr rfl fun I _ => ?_
  rw [Measure.pi_singleton, mul_comm]
  simp only [labelLaw_singleton]

/-- C275.  Sampling `n` events on several limits by a multinomial split.  `gen i` makes an event in the `i`-th piece from independent random
numbers with the law `ρ`, such that it follows the distribution `ν` restricted to the piece; `is` are the integrals of the pieces.  Then the
events, whatever their order, are `n` independent ones that follow `ν` restricted to all pieces together: every property `B` of the sample that
does not depend on the order has the probability it has for those. -/
theorem limits_sample_law {n m : ℕ} (ρ : Measure Ω) [IsProbabilityMeasure ρ] (gen : Fin m → Ω → E) (hgen : ∀ i, Measurable (gen i))
    (ν : Measure E) (piece : Fin m → Set E) (hm : ∀ i, MeasurableSet (piece i)) (hdisj : Pairwise (Function.onFun Disjoint piece))
    (is : Fin m → ℝ) (hpos : ∀ i, 0 < is i) (his : ∀ i, ν (piece i) = ENNReal.ofReal (is i))
    (hlaw : ∀ i, ρ.map (gen i) = ν[|piece i])
    (τ : Measure Ω') [IsProbabilityMeasure τ] (counts : List ℝ → Ω' → List ℕ)
    (hcounts : IsMultinomial n (fun i => is i / ∑ j, is j) τ (counts (List.ofFn fun i => is i / ∑ j, is j)))
    (B : Set (List E)) (hperm : ∀ l l', l.Perm l' → l ∈ B → l' ∈ B) (hB : ∀ k, MeasurableSet {x : Fin k → E | List.ofFn x ∈ B}) :
    (τ.prod (Measure.infinitePi fun _ : Fin m × ℕ => ρ)) {ω | ∃ r,
      limitsSample (fun _ => .error .multipleLimitsNotImplemented) (fun i k => .ok ((List.range k).map fun j => gen i (ω.2 (i, j))))
        (.ok (List.ofFn is)) (fun fr => counts fr ω.1) n (List.finRange m) = .ok r ∧ r ∈ B} =
      Measure.pi (fun _ : Fin n => ν[|⋃ i, piece i]) {x | List.ofFn x ∈ B} := by
  have hprob : ∀ i, IsProbabilityMeasure (ν[|piece i]) := fun i => by
    rw [← hlaw i]
    exact Measure.isProbabilityMeasure_map (hgen i).aemeasurable
  have hfrac : (List.ofFn is).map (· / (List.ofFn is).sum) = List.ofFn fun i => is i / ∑ j, is j := by
    rw [List.sum_ofFn, List.map_ofFn]
    rfl
  obtain ⟨draw, hdraw⟩ : ∃ d, d = counts (List.ofFn fun i => is i / ∑ j, is j) := ⟨_, rfl⟩
  rw [← hdraw] at hcounts
  have hS : {ω : Ω' × (Fin m × ℕ → Ω) | ∃ r,
      limitsSample (fun _ => .error .multipleLimitsNotImplemented) (fun i k => .ok ((List.range k).map fun j => gen i (ω.2 (i, j))))
        (.ok (List.ofFn is)) (fun fr => counts fr ω.1) n (List.finRange m) = .ok r ∧ r ∈ B} =
      {ω | ((drawn (draw ω.1)).map fun p => gen p.1 (ω.2 p)) ∈ B} := by
    ext ω
    simp only [Set.mem_setOf_eq, limitsSample_eq, hfrac, Except.ok.injEq, exists_eq_left', hdraw]
  have hSm : MeasurableSet {ω : Ω' × (Fin m × ℕ → Ω) | ((drawn (draw ω.1)).map fun p => gen p.1 (ω.2 p)) ∈ B} := by
    have : {ω : Ω' × (Fin m × ℕ → Ω) | ((drawn (draw ω.1)).map fun p => gen p.1 (ω.2 p)) ∈ B} =
        ⋃ c, {t | draw t = c} ×ˢ {ω : Fin m × ℕ → Ω | ((drawn c).map fun p => gen p.1 (ω p)) ∈ B} := by
      ext ω
      simp
    rw [this]
    exact MeasurableSet.iUnion fun c => (hcounts c).1.prod (measurable_drawn gen hgen B hB _)
  rw [hS, Measure.prod_apply hSm]
  have hslice : ∀ t, (Measure.infinitePi fun _ : Fin m × ℕ => ρ)
      (Prod.mk t ⁻¹' {ω : Ω' × (Fin m × ℕ → Ω) | ((drawn (draw ω.1)).map fun p => gen p.1 (ω.2 p)) ∈ B}) =
      (fun c => (Measure.infinitePi fun _ : Fin m × ℕ => ρ) {ω | ((drawn c).map fun p => gen p.1 (ω p)) ∈ B}) (draw t) := fun t => rfl
  simp only [hslice]
  refine (lintegral_multinomial _ τ draw hcounts
    (fun c => (Measure.infinitePi fun _ : Fin m × ℕ => ρ) {ω | ((drawn c).map fun p => gen p.1 (ω p)) ∈ B})).trans ?_
  have hI : ∀ I : Fin n → Fin m, (Measure.infinitePi fun _ : Fin m × ℕ => ρ) {ω | ((drawn (countsOf I)).map fun p => gen p.1 (ω p)) ∈ B} =
      Measure.pi (fun k => ν[|piece (I k)]) {x | List.ofFn x ∈ B} := by
    intro I
    obtain ⟨g, hg, hg1, hp⟩ := exists_numbering I
    rw [← drawn_countsOf] at hp
    have hmeas : Measurable (fun (ω : Fin m × ℕ → Ω) k => gen (g k).1 (ω (g k))) :=
      measurable_pi_lambda _ fun k => (hgen (g k).1).comp (measurable_pi_apply (g k))
    have hset : {ω : Fin m × ℕ → Ω | ((drawn (countsOf I)).map fun p => gen p.1 (ω p)) ∈ B} =
        (fun (ω : Fin m × ℕ → Ω) k => gen (g k).1 (ω (g k))) ⁻¹' {x | List.ofFn x ∈ B} := by
      ext ω
      have hp' := hp.map (fun p => gen p.1 (ω p))
      rw [List.map_ofFn] at hp'
      exact ⟨fun h => hperm _ _ hp'.symm h, fun h => hperm _ _ hp' h⟩
    rw [hset, ← Measure.map_apply hmeas (hB n), stream_law ρ gen hgen g hg]
    simp only [hg1, hlaw]
  simp only [hI]
  have hmix : (ν[|⋃ i, piece i]) = ∑ i, ENNReal.ofReal (is i / ∑ j, is j) • ν[|piece i] := by
    have hun : ν (⋃ i, piece i) = ENNReal.ofReal (∑ j, is j) := by
      rw [measure_iUnion hdisj hm, tsum_fintype, ENNReal.ofReal_sum_of_nonneg fun i _ => (hpos i).le]
      simp only [his]
    ext A hA
    rw [cond_apply (MeasurableSet.iUnion hm), hun, Set.iUnion_inter, measure_iUnion
      (fun i j hij => (hdisj hij).mono Set.inter_subset_left Set.inter_subset_left) (fun i => (hm i).inter hA), tsum_fintype]
    simp only [Measure.coe_finset_sum, Finset.sum_apply, Measure.smul_apply, smul_eq_mul]
    rw [Finset.mul_sum]
    refine Finset.sum_congr rfl fun i _ => ?_
    have hsum : 0 < ∑ j, is j := Finset.sum_pos (fun j _ => hpos j) ⟨i, Finset.mem_univ i⟩
    rw [cond_apply (hm i), his, ← mul_assoc]
    congr 1
    rw [← ENNReal.ofReal_inv_of_pos hsum, ← ENNReal.ofReal_inv_of_pos (hpos i), ← ENNReal.ofReal_mul (div_nonneg (hpos i).le hsum.le)]
    congr 1
    have := (hpos i).ne'
    field_simp
  rw [hmix, pi_mixture (fun i => ENNReal.ofReal (is i / ∑ j, is j)) (fun i => ENNReal.ofReal_ne_top) (fun i => ν[|piece i])]
  simp only [Measure.coe_finset_sum, Finset.sum_apply, Measure.smul_apply, smul_eq_mul]

end Law

end Zfit.Sample
