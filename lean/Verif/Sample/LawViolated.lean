import Verif.Sample.LawProps
import Mathlib.Algebra.Order.Ring.Pow
import Mathlib.MeasureTheory.Measure.Dirac

/-!
# Property C270: the default sampling and narrow peaks

Without a given maximum the scaling is estimated from the proposals.  `default_sample_follows_pdf_partial` (LawProps.lean) is the part of the property
that holds: once the scaling covers the pdf.  Here is a pdf with a narrow peak for which the first event is far from following the pdf.
-/

namespace Zfit.Sample

open Zfit MeasureTheory ENNReal

/-- The limits consist of a wide region (`false`), where the pdf is 1, and a narrow one (`true`), one in three million wide, where it is
thirty million: ten out of eleven events should be in the narrow region.  One event is to be sampled. -/
noncomputable def peak : Cfg Bool ℝ := ⟨fun e => if e then 30000000 else 1, 1, none, 1 / 2, false, true⟩

/-- The widths of the two regions. -/
noncomputable def widths : Measure Bool :=
  ENNReal.ofReal (2999999 / 3000000) • Measure.dirac false + ENNReal.ofReal (1 / 3000000) • Measure.dirac true

theorem widths_false : widths {false} = ENNReal.ofReal (2999999 / 3000000) := by
  simp [widths]

theorem widths_prob : IsProbabilityMeasure (widths.withDensity (fun _ => ENNReal.ofReal 1)) := by
  rw [ENNReal.ofReal_one, show (fun _ : Bool => (1 : ℝ≥0∞)) = 1 from rfl, withDensity_one]
  refine ⟨?_⟩
  simp only [widths, Measure.coe_add, Measure.coe_smul, Pi.add_apply, Pi.smul_apply, measure_univ, smul_eq_mul, mul_one]
  rw [← ENNReal.ofReal_add (by norm_num) (by norm_num)]
  norm_num

theorem peak_asks : nToProduce peak (start peak) = .ok 3000 := by
  unfold nToProduce start peak Cfg.nMin
  have h1 : max (1 / 2 : ℝ) (1 / 1000000) = 1 / 2 := max_eq_left (by norm_num)
  have h2 : ⌊(1 / (1 / 2) * (101 / 100) * 100 : ℝ)⌋ = 202 := by
    rw [Int.floor_eq_iff]; norm_num
  simp only [h1, h2]
  rfl

theorem maxOf_const {l : List ℝ} (h : ∀ x ∈ l, x = 1) (hne : l ≠ []) : maxOf l = 1 := by
  refine le_antisymm (maxOf_le zero_le_one (fun x hx => (h x hx).le)) ?_
  obtain ⟨x, hx⟩ := List.exists_mem_of_ne_nil l hne
  have := le_maxOf hx
  rwa [h x hx] at this

/-- If none of the first 3000 proposals is in the narrow region and the first one is accepted, it is the result. -/
theorem peak_missed (binom : ℕ → ℕ → ℝ → ℕ) (hb : ∀ k n p, binom k n p ≤ n) (shuffle) (ω : ℕ × ℕ → Bool × ℝ)
    (hω : ∀ j < 3000, (ω (0, j)).1 = false) (h0 : (ω (0, 0)).2 * (5 / 4) < 1) :
    acceptReject peak (streamEnv (fun _ => 1) (some 1) binom shuffle ω) 1 = some (.ok [false]) := by
  obtain ⟨N, hN⟩ : ∃ N : ℕ, N = 3000 := ⟨_, rfl⟩
  rw [← hN] at hω
  have hasks : nToProduce peak (start peak) = .ok N := by rw [hN]; exact peak_asks
  have hN0 : 0 < N := by omega
  clear hN
  obtain ⟨env, henv⟩ : ∃ env, env = streamEnv (fun _ => (1 : ℝ)) (some 1) binom shuffle ω := ⟨_, rfl⟩
  have hsample : (env.draw 0 N).sample = (List.range N).map (fun j => (ω (0, j)).1) := by rw [henv]; rfl
  have hweights : (env.draw 0 N).weights = (List.range N).map (fun _ => (1 : ℝ)) := by rw [henv]; rfl
  have hr : List.range N ≠ [] := by simp; omega
  have hprobs : ∀ x ∈ (env.draw 0 N).sample.map peak.prob, x = 1 := by
    intro x hx
    rw [hsample] at hx
    simp only [List.map_map, List.mem_map, List.mem_range, Function.comp_apply] at hx
    obtain ⟨j, hj, rfl⟩ := hx
    rw [hω j hj]
    simp [peak]
  have hw1 : ∀ x ∈ (env.draw 0 N).weights, x = 1 := by
    intro x hx
    rw [hweights] at hx
    simp only [List.mem_map] at hx
    obtain ⟨_, _, rfl⟩ := hx
    rfl
  have hest : estimate peak (start peak) (env.draw 0 N) = (5 / 4, 1, 1) := by
    unfold estimate
    have e1 : maxOf (env.draw 0 N).weights = 1 := maxOf_const hw1 (by rw [hweights]; simpa using hr)
    have e2 : maxOf ((env.draw 0 N).sample.map peak.prob) = 1 := maxOf_const hprobs (by rw [hsample]; simpa using hr)
    have e3 : max (start peak).wMax (maxOf (env.draw 0 N).weights) = 1 := by rw [e1]; simp [start]
    have e4 : max (start peak).pMax (maxOf ((env.draw 0 N).sample.map peak.prob)) = 1 := by rw [e2]; simp [start]
    have e5 : maxOf (List.zipWith (· / ·) ((env.draw 0 N).sample.map peak.prob)
        ((env.draw 0 N).weights.map (fun w => max w (1 / 100000)))) = 1 := by
      apply maxOf_const
      · intro x hx
        obtain ⟨j, hj, rfl⟩ := List.getElem_of_mem hx
        simp only [List.length_zipWith, List.length_map] at hj
        simp only [List.getElem_zipWith, List.getElem_map]
        rw [hw1 _ (List.getElem_mem (by omega))]
        have := hprobs (peak.prob (env.draw 0 N).sample[j]) (List.mem_map_of_mem (List.getElem_mem (by omega)))
        rw [this]
        norm_num
      · rw [hsample, hweights]
        intro h
        have := congrArg List.length h
        simp at this
        omega
    simp only [e3, e4, e5]
    norm_num [start, peak, Cfg.overestimate]
  have hresc : rescale peak env 0 (start peak) (env.draw 0 N) = ((List.range N).map (fun _ => 5 / 4), 0, 5 / 4, 1, 1) := by
    have hk : binom 0 0 (0 / (5 / 4)) = 0 := Nat.le_zero.1 (hb _ _ _)
    have : rescale peak env 0 (start peak) (env.draw 0 N) =
        ((env.draw 0 N).weights.map (fun v => (estimate peak (start peak) (env.draw 0 N)).1 * v),
          if (start peak).scaling = (estimate peak (start peak) (env.draw 0 N)).1 then (start peak).nProduced
          else env.binom 0 (start peak).nProduced ((start peak).scaling / (estimate peak (start peak) (env.draw 0 N)).1),
          estimate peak (start peak) (env.draw 0 N)) := rfl
    have hs : (start peak).scaling = 0 := rfl
    have hp : (start peak).nProduced = 0 := rfl
    rw [this, hest, if_neg (by rw [hs]; norm_num), hweights, hs, hp, henv]
    refine Prod.ext ?_ (Prod.ext hk rfl)
    simp only [List.map_map]
    apply List.map_congr_left
    intro j _
    simp
  have hacc := accepted_stream peak (fun _ => (1 : ℝ)) (some 1) binom shuffle ω (fun _ => 5 / 4) 0 N
  rw [← henv] at hacc
  obtain ⟨xs, hxs⟩ : ∃ xs, xs = accepted peak (env.draw 0 N) ((List.range N).map (fun _ => (5 / 4 : ℝ))) := ⟨_, rfl⟩
  have hfalse : ∀ e ∈ xs, e = false := by
    intro e he
    rw [hxs, hacc, List.mem_map] at he
    obtain ⟨q, hq, rfl⟩ := he
    obtain ⟨h1, h2, -⟩ := mem_picked.1 hq
    obtain ⟨a, b⟩ := q
    simp only at h1 h2
    subst h1
    exact hω b h2
  have hne : 0 < xs.length := by
    rw [hxs, hacc, List.length_map]
    refine List.length_pos_of_mem (a := (0, 0)) (mem_picked.2 ⟨rfl, hN0, ?_⟩)
    rw [decide_eq_true_eq, hω 0 hN0]
    simpa [peak] using h0
  have hbody : ∃ t, body peak env 0 (start peak) = .ok t ∧ t.arr = scatter [none] 0 xs ∧ t.nProduced = xs.length := by
    unfold body
    rw [hasks]
    simp only [except_bind_ok]
    rw [if_neg]
    · refine ⟨_, rfl, ?_, ?_⟩
      · simp only [hresc, hxs]; rfl
      · simp only [hresc, hxs]; simp
    · rw [hresc]
      simp only [Bool.and_eq_true, List.any_eq_true, decide_eq_true_eq, not_and, not_exists, not_lt]
      intro _ t ht
      have h1 := hprobs t.1 (List.of_mem_zip ht).1
      have h2 := (List.of_mem_zip ht).2
      simp only [List.mem_map] at h2
      obtain ⟨_, _, h2⟩ := h2
      rw [h1, ← h2]
      norm_num
  obtain ⟨t, ht, harr, hprod⟩ := hbody
  have hloop : loop peak env 1 0 (start peak) = some (.ok t) := by
    unfold loop
    rw [if_neg (by simp [start, peak]), ht]
    simp only
    unfold loop
    rw [if_pos (by rw [hprod]; exact hne)]
  rw [← henv]
  unfold acceptReject
  rw [hloop]
  simp only [Option.some.injEq]
  refine finish_take peak env rfl t [false] ?_
  rw [harr]
  cases xs with
  | nil => simp at hne
  | cons e xs =>
    rw [hfalse e List.mem_cons_self]
    simp [scatter, peak]

/-- C270 is violated without a given maximum.  For the pdf `peak` ten out of eleven events should be in the narrow region; the event returned
is outside of it with a probability of at least 4/5 * 999/1000, because its maximum is estimated from proposals that miss the narrow region. -/
theorem default_sample_follows_pdf_violated (binom : ℕ → ℕ → ℝ → ℕ) (hb : ∀ k n p, binom k n p ≤ n)
    (shuffle : List (Option Bool) → List (Option Bool)) :
    share widths peak.prob {false} < ENNReal.ofReal (1 / 10) ∧
    ENNReal.ofReal (4 / 5 * (999 / 1000)) ≤ randomness widths (fun _ => 1)
      {ω | ∃ fuel r, acceptReject peak (streamEnv (fun _ => 1) (some 1) binom shuffle ω) fuel = some (.ok r) ∧ r.length = 1 ∧
        ∀ i < 1, ∃ e ∈ ({false} : Set Bool), r[i]? = some e} := by
  have := widths_prob
  refine ⟨?_, ?_⟩
  · have h1 : ∫⁻ x in {false}, ENNReal.ofReal (peak.prob x) ∂widths = ENNReal.ofReal (2999999 / 3000000) := by
      rw [lintegral_singleton, widths_false]
      simp [peak]
    have h2 : ∫⁻ x, ENNReal.ofReal (peak.prob x) ∂widths = ENNReal.ofReal (2999999 / 3000000 + 10) := by
      unfold widths
      rw [lintegral_add_measure, lintegral_smul_measure, lintegral_smul_measure, lintegral_dirac, lintegral_dirac]
      simp only [peak, Bool.false_eq_true, if_false, if_true, smul_eq_mul]
      rw [← ENNReal.ofReal_mul (by norm_num), ← ENNReal.ofReal_mul (by norm_num), ← ENNReal.ofReal_add (by norm_num) (by norm_num)]
      norm_num
    unfold share
    rw [h1, h2, ← ENNReal.ofReal_div_of_pos (by norm_num)]
    rw [ENNReal.ofReal_lt_ofReal_iff (by norm_num)]
    norm_num
  · have hP : IsProbabilityMeasure (proposalLaw widths (fun _ => 1)) := by
      unfold proposalLaw
      have : IsProbabilityMeasure (volume.restrict (Set.Ico (0 : ℝ) 1)) := ⟨by simp⟩
      infer_instance
    obtain ⟨N, hN⟩ : ∃ N : ℕ, N = 3000 := ⟨_, rfl⟩
    obtain ⟨S, hS⟩ : ∃ S : Finset (ℕ × ℕ), S = (Finset.range N).map ⟨fun j => (0, j), fun a b h => (Prod.mk.inj h).2⟩ := ⟨_, rfl⟩
    obtain ⟨B, hB⟩ : ∃ B : ℕ × ℕ → Set (Bool × ℝ), B = fun p => if p = (0, 0) then {false} ×ˢ {t | t * (5 / 4) < 1} else {false} ×ˢ Set.univ :=
      ⟨_, rfl⟩
    have hsub : Set.pi (S : Set (ℕ × ℕ)) B ⊆
        {ω | ∃ fuel r, acceptReject peak (streamEnv (fun _ => 1) (some 1) binom shuffle ω) fuel = some (.ok r) ∧ r.length = 1 ∧
          ∀ i < 1, ∃ e ∈ ({false} : Set Bool), r[i]? = some e} := by
      intro ω hω
      have hmem : ∀ j < N, (0, j) ∈ (S : Set (ℕ × ℕ)) := by
        intro j hj
        rw [hS]
        simp only [Finset.coe_map, Function.Embedding.coeFn_mk, Set.mem_image, Finset.coe_range, Set.mem_Iio]
        exact ⟨j, hj, rfl⟩
      have h00 : (ω (0, 0)).1 = false ∧ (ω (0, 0)).2 * (5 / 4) < 1 := by
        have := hω (0, 0) (hmem 0 (by omega))
        rw [hB] at this
        simpa using this
      refine ⟨1, [false], peak_missed binom hb shuffle ω ?_ h00.2, rfl, ?_⟩
      · intro j hj
        have := hω (0, j) (hmem j (by omega))
        rw [hB] at this
        simp only at this
        split at this
        · exact this.1
        · exact this.1
      · intro i hi
        have : i = 0 := by omega
        subst this
        exact ⟨false, rfl, rfl⟩
    refine le_trans ?_ (measure_mono hsub)
    have hms : ∀ p ∈ S, MeasurableSet (B p) := by
      intro p _
      rw [hB]
      simp only
      split
      · exact (measurableSet_singleton _).prod (measurableSet_lt (measurable_id.mul_const _) measurable_const)
      · exact (measurableSet_singleton _).prod MeasurableSet.univ
    unfold randomness
    rw [Measure.infinitePi_pi _ hms]
    have hwd : (widths.withDensity (fun _ => ENNReal.ofReal 1)) = widths := by
      rw [ENNReal.ofReal_one, show (fun _ : Bool => (1 : ℝ≥0∞)) = 1 from rfl, withDensity_one]
    have hother : proposalLaw widths (fun _ => 1) ({false} ×ˢ Set.univ) = ENNReal.ofReal (2999999 / 3000000) := by
      unfold proposalLaw
      rw [hwd, Measure.prod_prod, widths_false]
      simp
    have hfirst : proposalLaw widths (fun _ => 1) ({false} ×ˢ {t | t * (5 / 4) < 1}) = ENNReal.ofReal (2999999 / 3000000 * (4 / 5)) := by
      unfold proposalLaw
      rw [hwd, Measure.prod_prod, widths_false, threshold_prob 1 (5 / 4) (by norm_num) (by norm_num), ← ENNReal.ofReal_mul (by norm_num)]
      norm_num
    have hS0 : (0, 0) ∈ S := by
      rw [hS, Finset.mem_map]
      exact ⟨0, Finset.mem_range.2 (by omega), rfl⟩
    rw [← Finset.mul_prod_erase S _ hS0]
    have hcard : (S.erase (0, 0)).card = N - 1 := by
      rw [Finset.card_erase_of_mem hS0, hS, Finset.card_map, Finset.card_range]
    rw [Finset.prod_congr rfl (g := fun _ => ENNReal.ofReal (2999999 / 3000000)), Finset.prod_const, hcard]
    · have h0 : B (0, 0) = {false} ×ˢ {t | t * (5 / 4) < 1} := by rw [hB]; simp
      rw [h0, hfirst, ← ENNReal.ofReal_pow (by norm_num), ← ENNReal.ofReal_mul (by norm_num)]
      apply ENNReal.ofReal_le_ofReal
      have hbern := one_add_mul_le_pow (a := (-(1 / 3000000) : ℝ)) (by norm_num) N
      have e1 : (1 + -(1 / 3000000) : ℝ) = 2999999 / 3000000 := by norm_num
      rw [e1] at hbern
      have e2 : (2999999 / 3000000 : ℝ) * (2999999 / 3000000) ^ (N - 1) = (2999999 / 3000000) ^ N := by
        rw [← pow_succ']
        congr 1
        omega
      have e3 : (1 + (N : ℝ) * -(1 / 3000000)) = 999 / 1000 := by rw [hN]; norm_num
      rw [e3] at hbern
      nlinarith
    · intro p hp
      have hp0 : p ≠ (0, 0) := Finset.ne_of_mem_erase hp
      rw [hB]
      simp only [if_neg hp0]
      exact hother

end Zfit.Sample
