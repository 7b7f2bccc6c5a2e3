import Verif.BinPdf.DrawLaw
import Verif.BinPdf.AtProps
import Verif.Binned.FillProps

/-!
# Samples of a binned PDF

* C281: `binned_sample_multinomial`, `binned_sample_poisson`, `binned_sample_not_extended`
* C282: `sample_params_partial`; `sample_params_violated`
* C283: `sample_limits_partial`, `sample_limits_refused`; `sample_binning_violated`
-/

namespace Zfit.BinPdf

open Zfit Zfit.Bin ProbabilityTheory MeasureTheory
open scoped NNReal ENNReal

theorem idx_mem {shape : List ℕ} (c : Cell shape) : c.idx ∈ allIdx shape := by
  rw [mem_allIdx, List.forall₂_iff_get]
  refine ⟨by simp [Cell.idx], fun i h1 h2 => ?_⟩
  simp only [Cell.idx, List.get_ofFn]
  exact (c _).2

/-- The content of a bin of a space. -/
def contentAt (I : (String → Option (Rat × Rat)) → Rat) (s : BSpace) (c : Cell (binShape s)) : Rat := I (cellOf s (indexOf s c.idx))

theorem get_contentAt {I : (String → Option (Rat × Rat)) → Rat} {s : BSpace} (hn : s.obs.Nodup) {g : List ℕ → Rat}
    (h : ContentsOf I s ⟨binShape s, g⟩) (c : Cell (binShape s)) : g c.idx = contentAt I s c := by
  have := h.2 (indexOf s c.idx) (hasBin_indexOf hn (idx_mem c))
  unfold byName at this
  rw [map_indexOf hn (by rw [(mem_allIdx_bounds (idx_mem c)).1]; simp [binShape, BSpace.obs])] at this
  exact this

theorem classes_ok {shape : List ℕ} {g : List ℕ → Rat} (h0 : ∀ c : Cell shape, 0 ≤ g c.idx) (h1 : ∃ c : Cell shape, 0 < g c.idx) :
    ∃ q : PMF (Cell shape), classes ⟨shape, g⟩ = .ok q ∧
      ∀ c, q c = ENNReal.ofReal ((g c.idx : ℝ) / ∑ c : Cell shape, (g c.idx : ℝ)) := by
  have hd : (∀ c : Cell shape, 0 ≤ g c.idx) ∧ ∃ c : Cell shape, 0 < g c.idx := ⟨h0, h1⟩
  refine ⟨_, by unfold classes; rw [dif_pos hd], fun c => ?_⟩
  rw [PMF.normalize_apply, tsum_fintype, ← ENNReal.ofReal_sum_of_nonneg fun c _ => Rat.cast_nonneg.2 (h0 c)]
  have hpos : (0 : ℝ) < ∑ c : Cell shape, (g c.idx : ℝ) := by
    obtain ⟨c, hc⟩ := h1
    exact Finset.sum_pos' (fun c _ => Rat.cast_nonneg.2 (h0 c)) ⟨c, Finset.mem_univ _, Rat.cast_pos.2 hc⟩
  rw [← ENNReal.ofReal_inv_of_pos hpos, ← ENNReal.ofReal_mul (Rat.cast_nonneg.2 (h0 c)), div_eq_mul_inv]

theorem sameLimits_perm {s t : BSpace} (hp : s.axes.Perm t.axes) (hn : t.obs.Nodup) : sameLimits s t = true := by
  have hobs : s.obs.Perm t.obs := hp.map _
  unfold sameLimits
  simp only [Bool.and_eq_true, decide_eq_true_eq, List.all_eq_true]
  refine ⟨hobs, fun a ha => ?_⟩
  have : (t.axes.find? fun b => b.name = a.name) = some a := by
    cases h : t.axes.find? fun b => b.name = a.name with
    | none =>
      rw [List.find?_eq_none] at h
      exact absurd (h a (hp.mem_iff.1 ha)) (by simp)
    | some b =>
      have hbm := List.mem_of_find?_eq_some h
      have hbn : b.name = a.name := by simpa using List.find?_some h
      rw [List.inj_on_of_nodup_map hn hbm (hp.mem_iff.1 ha) hbn]
  rw [this]
  simp

variable {Θ : Type}

/-- The number of events: given, or a Poisson number with the yield at the current values as mean. -/
noncomputable def Sampled.number (p : Sampled Θ) (θ : Θ) : Option ℕ → Except Err (PMF ℕ)
  | some n => .ok (PMF.pure n)
  | none => match p.yield with
    | some y => .ok (poisson (y θ))
    | none => .error .valueError

theorem sample_number (p : Sampled Θ) (θ : Θ) (params : Option Θ) (n : Option ℕ) (limits : Option BSpace) :
    p.sample θ params n limits = (p.number θ n >>= fun number =>
      if sameLimits (limits.getD p.space) p.space = false then .error .workInProgress
      else countsFor p.space (p.relCounts (params.getD θ)) (.space (limits.getD p.space)) >>= fun probs =>
        classes probs >>= fun d =>
        if binShape (limits.getD p.space) ≠ probs.shape then .error .invalidArgument
        else pure ⟨limits.getD p.space, probs.shape, number.bind fun n => draws d n⟩) := by
  unfold Sampled.sample Sampled.number
  cases n with
  | some n => rfl
  | none => cases p.yield <;> rfl

/-- What `sample` does on bins that are those of the PDF. -/
theorem sample_eq (p : Sampled Θ) (θ θ' : Θ) (params : Option Θ) (hθ : params.getD θ = θ') (n : Option ℕ) (number : PMF ℕ)
    (hnum : p.number θ n = .ok number) (limits : Option BSpace) (hn : p.space.obs.Nodup) (hne : p.space.obs ≠ [])
    (I : (String → Option (Rat × Rat)) → Rat) (hc : ContentsOf I p.space (p.relCounts θ'))
    (hp : (limits.getD p.space).axes.Perm p.space.axes) (hx : Exchanges p.space.obs (limits.getD p.space).obs)
    (h0 : ∀ c, 0 ≤ contentAt I (limits.getD p.space) c) (h1 : ∃ c, 0 < contentAt I (limits.getD p.space) c) :
    ∃ q : PMF (Cell (binShape (limits.getD p.space))),
      p.sample θ params n limits = .ok ⟨limits.getD p.space, binShape (limits.getD p.space), number.bind fun n => draws q n⟩ ∧
      ∀ c, q c = ENNReal.ofReal ((contentAt I (limits.getD p.space) c : ℝ) / ∑ c, (contentAt I (limits.getD p.space) c : ℝ)) := by
  generalize hl : limits.getD p.space = lims at *
  have hln : lims.obs.Nodup := (List.Perm.map _ hp : lims.obs.Perm p.space.obs).nodup_iff.2 hn
  obtain ⟨⟨sh, g⟩, hb, hcb⟩ := counts_for_bins_partial I p.space (p.relCounts θ') hn hne hc (.space lims) hp hx (by rintro d ⟨⟩)
  simp only [XIn.bins] at hcb
  have hsh : sh = binShape lims := hcb.1
  subst hsh
  have hg := get_contentAt hln hcb
  obtain ⟨q, hq, hqc⟩ := classes_ok (g := g) (fun c => by rw [hg]; exact h0 c) (by obtain ⟨c, hc⟩ := h1; exact ⟨c, by rw [hg]; exact hc⟩)
  refine ⟨q, ?_, fun c => ?_⟩
  · rw [sample_number, hnum, except_bind_ok]
    simp only [hl, hθ]
    rw [if_neg (by rw [sameLimits_perm hp hn]; simp), hb, except_bind_ok, hq, except_bind_ok, if_neg (by simp)]
    rfl
  · rw [hqc]
    simp only [hg]

theorem exchanges_refl {o : List String} (hn : o.Nodup) : Exchanges o o := by
  intro i j hi hij
  have hj : j < o.length := by
    by_contra hcon
    rw [List.getElem?_eq_none (by omega), List.getElem?_eq_getElem hi] at hij
    cases hij
  rw [List.getElem?_eq_getElem hi, List.getElem?_eq_getElem hj, Option.some.injEq] at hij
  rw [(List.Nodup.getElem_inj_iff hn).1 hij]

theorem pure_bind_draws {ι : Type} [DecidableEq ι] (q : PMF ι) (n : ℕ) : ((PMF.pure n).bind fun n => draws q n) = draws q n :=
  PMF.pure_bind _ _

/-! ## C281 -/

/-- C281: `sample(n)` gives binned data with the bins of the PDF; the contents follow the multinomial distribution of `n` events with the
relative counts of the PDF (contents `I` of the bins, which are divided by their sum) as probabilities. -/
theorem binned_sample_multinomial (p : Sampled Θ) (θ : Θ) (n : ℕ) (hn : p.space.obs.Nodup) (hne : p.space.obs ≠ [])
    (I : (String → Option (Rat × Rat)) → Rat) (hc : ContentsOf I p.space (p.relCounts θ)) (h0 : ∀ c, 0 ≤ contentAt I p.space c)
    (h1 : ∃ c, 0 < contentAt I p.space c) :
    ∃ law : PMF (Cell (binShape p.space) → ℕ), p.sample θ none (some n) none = .ok ⟨p.space, binShape p.space, law⟩ ∧
      IsMultinomialLaw n (fun c => (contentAt I p.space c : ℝ) / ∑ c, (contentAt I p.space c : ℝ)) law := by
  obtain ⟨q, hq, hqc⟩ := sample_eq p θ θ none rfl (some n) _ rfl none hn hne I hc (List.Perm.refl _) (exchanges_refl hn) h0 h1
  refine ⟨_, hq, ?_⟩
  rw [pure_bind_draws]
  exact draws_law q _ (fun c => div_nonneg (Rat.cast_nonneg.2 (h0 c)) (Finset.sum_nonneg fun c _ => Rat.cast_nonneg.2 (h0 c))) hqc n

/-- C281: `sample()` of an extended binned PDF: the contents of the bins are independent, each with the Poisson distribution with mean
yield times relative count. -/
theorem binned_sample_poisson (p : Sampled Θ) (θ : Θ) (y : Θ → ℝ≥0) (hy : p.yield = some y) (hn : p.space.obs.Nodup)
    (hne : p.space.obs ≠ []) (I : (String → Option (Rat × Rat)) → Rat) (hc : ContentsOf I p.space (p.relCounts θ))
    (h0 : ∀ c, 0 ≤ contentAt I p.space c) (h1 : ∃ c, 0 < contentAt I p.space c) :
    ∃ law : PMF (Cell (binShape p.space) → ℕ), p.sample θ none none none = .ok ⟨p.space, binShape p.space, law⟩ ∧
      IsIndependentPoisson (fun c => y θ * Real.toNNReal (contentAt I p.space c / ∑ c, (contentAt I p.space c : ℝ))) law := by
  obtain ⟨q, hq, hqc⟩ := sample_eq p θ θ none rfl none (poisson (y θ)) (by unfold Sampled.number; rw [hy]) none hn hne I hc
    (List.Perm.refl _) (exchanges_refl hn) h0 h1
  refine ⟨_, hq, poisson_draws_law q _ (fun c => ?_) _⟩
  rw [hqc, Real.coe_toNNReal _ (div_nonneg (Rat.cast_nonneg.2 (h0 c)) (Finset.sum_nonneg fun c _ => Rat.cast_nonneg.2 (h0 c)))]
  rfl

/-- C281: without `n` a PDF that is not extended is refused. -/
theorem binned_sample_not_extended (p : Sampled Θ) (θ : Θ) (params : Option Θ) (limits : Option BSpace) (hy : p.yield = none) :
    p.sample θ params none limits = .error .valueError := by
  unfold Sampled.sample
  rw [hy]
  rfl

/-! ## C282 -/

/-- C282 (partial): `sample(params=...)` is `sample()` at these values, if the number of events is given, or the values do not change the
yield, or the PDF is not extended.  Missing from the full claim: the other values, for which it is false (`sample_params_violated`). -/
theorem sample_params_partial (p : Sampled Θ) (θ θ' : Θ) (n : Option ℕ) (limits : Option BSpace)
    (h : n ≠ none ∨ ∀ y, p.yield = some y → y θ = y θ') : p.sample θ (some θ') n limits = p.sample θ' none n limits := by
  have : p.number θ n = p.number θ' n := by
    unfold Sampled.number
    cases n with
    | some n => rfl
    | none =>
      rcases h with h | h
      · exact absurd rfl h
      · cases hy : p.yield with
        | none => rfl
        | some y => simp only [h y hy]
  rw [sample_number, sample_number, this]
  rfl

/-- An extended PDF with one bin; the parameter is its yield. -/
noncomputable def oneBin : Sampled ℝ≥0 := ⟨⟨[⟨"x", [0, 1]⟩]⟩, fun _ => ⟨[1], fun _ => 1⟩, some id⟩

theorem oneBin_contents (θ : ℝ≥0) : ContentsOf (fun _ => 1) oneBin.space (oneBin.relCounts θ) := ⟨rfl, fun _ _ => rfl⟩

theorem oneBin_law (θ θ' : ℝ≥0) : ∃ law : PMF (Cell (binShape oneBin.space) → ℕ),
    oneBin.sample θ (some θ') none none = .ok ⟨oneBin.space, binShape oneBin.space, law⟩ ∧ IsIndependentPoisson (fun _ => θ) law := by
  obtain ⟨q, hq, hqc⟩ := sample_eq oneBin θ θ' (some θ') rfl none (poisson θ) rfl none (by decide) (by decide) (fun _ => 1)
    (oneBin_contents θ') (List.Perm.refl _) (exchanges_refl (by decide)) (fun _ => by simp [contentAt])
    ⟨fun i => ⟨0, by revert i; decide⟩, by simp [contentAt]⟩
  refine ⟨_, hq, ?_⟩
  have := poisson_draws_law q (fun _ => 1) (fun c => ?_) θ
  · simpa using this
  · rw [hqc]
    have hcard : (∑ _c : Cell (binShape oneBin.space), ((1 : Rat) : ℝ)) = 1 := by
      rw [Finset.sum_const, Finset.card_univ]
      have : Fintype.card (Cell (binShape oneBin.space)) = 1 := by decide
      rw [this]
      simp
    simp only [contentAt, Option.getD_none]
    rw [hcard]
    simp

/-- The property C282 fails for the yield of an extended PDF: with the yield given as 2 the number of events is drawn with the current
yield 1. -/
theorem sample_params_violated :
    ∃ law law' : PMF (Cell (binShape oneBin.space) → ℕ),
      oneBin.sample 1 (some 2) none none = .ok ⟨oneBin.space, binShape oneBin.space, law⟩ ∧
      oneBin.sample 2 none none none = .ok ⟨oneBin.space, binShape oneBin.space, law'⟩ ∧
      IsIndependentPoisson (fun _ => 1) law ∧ IsIndependentPoisson (fun _ => 2) law' ∧ law ≠ law' := by
  obtain ⟨law, h1, h2⟩ := oneBin_law 1 2
  obtain ⟨law', h3, h4⟩ := oneBin_law 2 2
  rw [sample_params_partial oneBin 2 2 none none (Or.inr fun y _ => rfl)] at h3
  refine ⟨law, law', h1, h3, h2, h4, fun h => ?_⟩
  subst h
  have := congrArg (fun μ => μ {fun _ => 0}) (h2.symm.trans h4)
  simp only [Measure.pi_singleton, poissonMeasure_singleton] at this
  rw [Finset.prod_const, Finset.prod_const, Finset.card_univ, show Fintype.card (Cell (binShape oneBin.space)) = 1 by decide, pow_one, pow_one,
    ENNReal.ofReal_eq_ofReal_iff (by positivity) (by positivity)] at this
  simp at this

/-! ## C283 -/

/-- C283 (partial): `sample(n, limits)` gives binned data with the bins of the limits; the contents follow the multinomial distribution
with the contents `I` of these bins as probabilities, for limits with the axes of the PDF in an order that arises by exchanging disjoint
pairs of observables.  Missing from the full claim: limits with other bins (`sample_binning_violated`), the orders of C279. -/
theorem sample_limits_partial (p : Sampled Θ) (θ : Θ) (n : ℕ) (lims : BSpace) (hn : p.space.obs.Nodup) (hne : p.space.obs ≠ [])
    (I : (String → Option (Rat × Rat)) → Rat) (hc : ContentsOf I p.space (p.relCounts θ)) (hp : lims.axes.Perm p.space.axes)
    (hx : Exchanges p.space.obs lims.obs) (h0 : ∀ c, 0 ≤ contentAt I lims c) (h1 : ∃ c, 0 < contentAt I lims c) :
    ∃ law : PMF (Cell (binShape lims) → ℕ), p.sample θ none (some n) (some lims) = .ok ⟨lims, binShape lims, law⟩ ∧
      IsMultinomialLaw n (fun c => (contentAt I lims c : ℝ) / ∑ c, (contentAt I lims c : ℝ)) law := by
  obtain ⟨q, hq, hqc⟩ := sample_eq p θ θ none rfl (some n) _ rfl (some lims) hn hne I hc hp hx h0 h1
  refine ⟨_, hq, ?_⟩
  rw [pure_bind_draws]
  exact draws_law q _ (fun c => div_nonneg (Rat.cast_nonneg.2 (h0 c)) (Finset.sum_nonneg fun c _ => Rat.cast_nonneg.2 (h0 c))) hqc n

/-- C283: limits with other observables, or that differ from those of the PDF by 1e-8 or more in some observable, are refused. -/
theorem sample_limits_refused (p : Sampled Θ) (θ : Θ) (params : Option Θ) (n : ℕ) (lims : BSpace) (hn : p.space.obs.Nodup)
    (h : ¬ lims.obs.Perm p.space.obs ∨ ∃ a ∈ lims.axes, ∃ b ∈ p.space.axes, b.name = a.name ∧
      (1/100000000 ≤ |a.edges.headD 0 - b.edges.headD 0| ∨ 1/100000000 ≤ |a.edges.getLastD 0 - b.edges.getLastD 0|)) :
    p.sample θ params (some n) (some lims) = .error .workInProgress := by
  have hs : sameLimits lims p.space = false := by
    by_contra hcon
    rw [Bool.not_eq_false] at hcon
    unfold sameLimits at hcon
    simp only [Bool.and_eq_true, decide_eq_true_eq, List.all_eq_true] at hcon
    rcases h with h | ⟨a, ha, b, hb, hba, h⟩
    · exact h hcon.1
    · have hf : (p.space.axes.find? fun b => b.name = a.name) = some b := by
        cases hf : p.space.axes.find? fun b => b.name = a.name with
        | none =>
          rw [List.find?_eq_none] at hf
          exact absurd hba (by simpa using hf b hb)
        | some b' =>
          have hbn : b'.name = a.name := by simpa using List.find?_some hf
          rw [List.inj_on_of_nodup_map hn (List.mem_of_find?_eq_some hf) hb (hbn.trans hba.symm)]
      have := hcon.2 a ha
      rw [hf] at this
      simp only [Bool.and_eq_true, decide_eq_true_eq] at this
      rcases h with h | h
      · exact absurd this.1 (not_lt.2 h)
      · exact absurd this.2 (not_lt.2 h)
  unfold Sampled.sample
  simp only [except_bind_ok, Option.getD_some]
  rw [if_pos hs]

/-- A uniform PDF with two bins of the same width. -/
noncomputable def evenBins : Sampled Unit := ⟨flatBins, fun _ => ⟨[2], fun _ => 1⟩, none⟩

/-- The property C283 fails for limits with other bins: they are accepted, the data has the bins asked for, and its contents are those of
the bins of the PDF.  Here a single event is in [0, 1/2] with probability 1/2, for a uniform PDF on [0, 2]. -/
theorem sample_binning_violated :
    ContentsOf (volume ["x"]) flatBins (evenBins.relCounts ()) ∧
    ∃ law : PMF (Cell (binShape otherData.space) → ℕ),
      evenBins.sample () none (some 1) (some otherData.space) = .ok ⟨otherData.space, binShape otherData.space, law⟩ ∧
      IsMultinomialLaw 1 (fun _ => 1/2) law ∧
      ¬ IsMultinomialLaw 1 (fun c => (contentAt (volume ["x"]) otherData.space c : ℝ) / ∑ c, (contentAt (volume ["x"]) otherData.space c : ℝ)) law := by
  refine ⟨loss_other_binning_violated.1, ?_⟩
  obtain ⟨b, hb, hs, hv⟩ : ∃ b, countsFor flatBins ⟨[2], fun _ => 1⟩ (.space otherData.space) = .ok b ∧ b.shape = binShape otherData.space ∧
      ∀ i, b.get i = 1 := ⟨_, rfl, by decide, fun _ => rfl⟩
  obtain ⟨sh, g⟩ := b
  simp only at hs hv
  subst hs
  have hcard : Fintype.card (Cell (binShape otherData.space)) = 2 := by decide
  obtain ⟨q, hq, hqc⟩ := classes_ok (shape := binShape otherData.space) (g := g) (fun c => by rw [hv]; exact zero_le_one)
    ⟨fun i => ⟨0, by revert i; decide⟩, by rw [hv]; exact zero_lt_one⟩
  have hlaw : IsMultinomialLaw 1 (fun _ => 1/2) (draws q 1) := draws_law q _ (fun _ => by norm_num) (fun c => by
    rw [hqc]
    simp only [hv]
    rw [Finset.sum_const, Finset.card_univ, hcard]
    norm_num) 1
  refine ⟨draws q 1, ?_, hlaw, fun hcon => ?_⟩
  · rw [sample_number]
    simp only [Sampled.number, except_bind_ok, Option.getD_some, Option.getD_none]
    rw [if_neg (by decide +kernel), show evenBins.space = flatBins from rfl, show evenBins.relCounts () = ⟨[2], fun _ => 1⟩ from rfl, hb,
      except_bind_ok, hq, except_bind_ok, if_neg (by simp), pure_bind_draws]
    rfl
  · have hsum : ∑ c, (contentAt (volume ["x"]) otherData.space c : ℝ) = 2 := by
      have : ∑ c, contentAt (volume ["x"]) otherData.space c = 2 := by decide +kernel
      exact_mod_cast this
    have h0 : contentAt (volume ["x"]) otherData.space (fun i => ⟨0, by revert i; decide⟩) = 1/2 := by decide +kernel
    have e1 := hlaw (fun c => if c = (fun i => ⟨0, by revert i; decide⟩) then 1 else 0)
    have e2 := hcon (fun c => if c = (fun i => ⟨0, by revert i; decide⟩) then 1 else 0)
    have hf : (∏ i : Cell (binShape otherData.space), (if i = (fun i => ⟨0, by revert i; decide⟩) then 1 else 0 : ℕ).factorial) = 1 :=
      Finset.prod_eq_one fun i _ => by split <;> rfl
    rw [e1, hsum, hf] at e2
    simp [h0, Finset.prod_ite_eq'] at e2
    have := congrArg ENNReal.toReal e2
    rw [ENNReal.toReal_ofReal (by norm_num)] at this
    norm_num at this

/-! ## The hypotheses are met -/

/-- A PDF of two observables with 2 × 3 bins, proportional to the volume of the bins; the parameter is the yield. -/
noncomputable def gridBins : Sampled ℝ≥0 :=
  ⟨⟨[⟨"x", [0, 1, 3]⟩, ⟨"y", [0, 1, 2, 4]⟩]⟩,
    fun _ => ⟨[2, 3], fun i => volume ["x", "y"] (cellOf ⟨[⟨"x", [0, 1, 3]⟩, ⟨"y", [0, 1, 2, 4]⟩]⟩ (indexOf ⟨[⟨"x", [0, 1, 3]⟩, ⟨"y", [0, 1, 2, 4]⟩]⟩ i))⟩,
    some id⟩

theorem gridBins_contents (θ : ℝ≥0) : ContentsOf (volume ["x", "y"]) gridBins.space (gridBins.relCounts θ) := by
  refine ⟨rfl, fun f hf => ?_⟩
  simp [byName, volume, cellOf, gridBins, indexOf, BSpace.obs]

theorem gridBins_nonneg : ∀ c, 0 ≤ contentAt (volume ["x", "y"]) gridBins.space c := by
  have : ∀ c, 0 ≤ contentAt (volume ["x", "y"]) ⟨[⟨"x", [0, 1, 3]⟩, ⟨"y", [0, 1, 2, 4]⟩]⟩ c := by decide +kernel
  exact this

theorem gridBins_pos : ∃ c, 0 < contentAt (volume ["x", "y"]) gridBins.space c := by
  have : ∃ c, 0 < contentAt (volume ["x", "y"]) ⟨[⟨"x", [0, 1, 3]⟩, ⟨"y", [0, 1, 2, 4]⟩]⟩ c := by decide +kernel
  exact this

/-- non-vacuity of `binned_sample_multinomial` -/
example : ∃ law : PMF (Cell (binShape gridBins.space) → ℕ),
    gridBins.sample 5 none (some 7) none = .ok ⟨gridBins.space, binShape gridBins.space, law⟩ ∧
    IsMultinomialLaw 7 (fun c => (contentAt (volume ["x", "y"]) gridBins.space c : ℝ) /
      ∑ c, (contentAt (volume ["x", "y"]) gridBins.space c : ℝ)) law :=
  binned_sample_multinomial gridBins 5 7 (by decide) (by decide) _ (gridBins_contents 5) gridBins_nonneg gridBins_pos

/-- non-vacuity of `binned_sample_poisson` -/
example : ∃ law : PMF (Cell (binShape gridBins.space) → ℕ),
    gridBins.sample 5 none none none = .ok ⟨gridBins.space, binShape gridBins.space, law⟩ ∧
    IsIndependentPoisson (fun c => 5 * Real.toNNReal (contentAt (volume ["x", "y"]) gridBins.space c /
      ∑ c, (contentAt (volume ["x", "y"]) gridBins.space c : ℝ))) law :=
  binned_sample_poisson gridBins 5 id rfl (by decide) (by decide) _ (gridBins_contents 5) gridBins_nonneg gridBins_pos

/-- non-vacuity of `binned_sample_not_extended` -/
example : evenBins.sample () none none none = .error .valueError := binned_sample_not_extended evenBins () none none rfl

/-- non-vacuity of `sample_params_partial` -/
example : gridBins.sample 5 (some 3) (some 7) none = gridBins.sample 3 none (some 7) none :=
  sample_params_partial gridBins 5 3 _ _ (Or.inl (by simp))

/-- The limits of `gridBins`, with the observables exchanged. -/
def gridSwapped : BSpace := ⟨[⟨"y", [0, 1, 2, 4]⟩, ⟨"x", [0, 1, 3]⟩]⟩

/-- non-vacuity of `sample_limits_partial` -/
example : ∃ law : PMF (Cell (binShape gridSwapped) → ℕ),
    gridBins.sample 5 none (some 7) (some gridSwapped) = .ok ⟨gridSwapped, binShape gridSwapped, law⟩ ∧
    IsMultinomialLaw 7 (fun c => (contentAt (volume ["x", "y"]) gridSwapped c : ℝ) /
      ∑ c, (contentAt (volume ["x", "y"]) gridSwapped c : ℝ)) law :=
  sample_limits_partial gridBins 5 7 gridSwapped (by decide) (by decide) _ (gridBins_contents 5) (List.Perm.swap _ _ _)
    (by
      intro i j hi hij
      have hi' : i < 2 := hi
      have hj' : j < 2 := by
        by_contra hcon
        rw [List.getElem?_eq_none (l := gridSwapped.obs) (by simp only [gridSwapped, BSpace.obs, List.map_cons, List.map_nil, List.length_cons, List.length_nil]; omega),
          List.getElem?_eq_getElem hi] at hij
        cases hij
      interval_cases i <;> interval_cases j <;> revert hij <;> decide) (by decide +kernel) (by decide +kernel)

/-- non-vacuity of `sample_limits_refused` -/
example : evenBins.sample () none (some 3) (some ⟨[⟨"x", [0, 1, 3]⟩]⟩) = .error .workInProgress :=
  sample_limits_refused evenBins () none 3 _ (by decide) (Or.inr ⟨_, List.mem_singleton.2 rfl, ⟨"x", [0, 1, 2]⟩, List.mem_singleton.2 rfl, rfl,
    Or.inr (by decide +kernel)⟩)

end Zfit.BinPdf
