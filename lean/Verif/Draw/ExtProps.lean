import Verif.Draw.Props
import Mathlib.Tactic.Ring

/-!
# Properties of `sample` of truncated and of extended PDFs

* C142 `sample_count`
* C143 `extended_sampling_partial`, `extended_sampling_auto_sum`, `extended_sampling_truncated_violated`,
  `extended_sampling_fracs_violated`, `extended_sampling_mixed_violated`
* C146 `truncated_sample_follows`, `truncated_sample_inside`
-/

namespace Zfit.Draw

open Zfit
open scoped ENNReal

variable {E : Type} [DecidableEq E]

/-! ## C146 -/

/-- An event is in one of the limits. -/
def inAny (limits : List (E → Bool)) (e : E) : Bool := limits.any (· e)

theorem weight_inAny (f : E → ℝ≥0∞) (limits : List (E → Bool))
    (hdis : limits.Pairwise (fun a b => ∀ e, ¬ (a e = true ∧ b e = true))) :
    weight f (inAny limits) = (limits.map (weight f)).sum := by
  induction limits with
  | nil => simp [weight, inAny]
  | cons a ls ih =>
    rw [List.map_cons, List.sum_cons, ← ih (List.pairwise_cons.1 hdis).2]
    unfold weight
    rw [← ENNReal.tsum_add]
    refine tsum_congr (fun e => ?_)
    have h := (List.pairwise_cons.1 hdis).1
    by_cases ha : a e = true
    · have : inAny ls e = false := by
        rw [inAny, List.any_eq_false]
        exact fun b hb he => h b hb e ⟨ha, he⟩
      rw [show inAny (a :: ls) e = true by simp [inAny, ha], this]
      simp [ha]
    · have : inAny (a :: ls) e = inAny ls e := by
        simp [inAny, ha]
      rw [this]
      simp [ha]

theorem mixture_pieces (f : E → ℝ≥0∞) (limits : List (E → Bool)) (W : ℝ≥0∞) (hW : W ≠ 0) (hf : ∀ l ∈ limits, weight f l ≠ ⊤)
    (hdis : limits.Pairwise (fun a b => ∀ e, ¬ (a e = true ∧ b e = true))) (e : E) :
    mixture ((limits.map (weight f)).map (· / W)) (limits.map (given f)) e = if inAny limits e then f e / W else 0 := by
  induction limits with
  | nil => simp [mixture, inAny]
  | cons a ls ih =>
    have hih := ih (fun l hl => hf l (List.mem_cons_of_mem _ hl)) (List.pairwise_cons.1 hdis).2
    have h := (List.pairwise_cons.1 hdis).1
    simp only [mixture, List.map_cons, List.zip_cons_cons, List.sum_cons] at hih ⊢
    rw [hih]
    have hta := hf a List.mem_cons_self
    by_cases ha : a e = true
    · have hno : inAny ls e = false := by
        rw [inAny, List.any_eq_false]
        exact fun b hb he => h b hb e ⟨ha, he⟩
      rw [show inAny (a :: ls) e = true by simp [inAny, ha], hno]
      simp only [if_true, Bool.false_eq_true, if_false, add_zero, given, ha]
      by_cases h0 : weight f a = 0
      · have : f e = 0 := by
          have := ENNReal.tsum_eq_zero.1 h0 e
          simpa [ha] using this
        simp [this]
      · rw [mul_comm, div_eq_mul_inv, div_eq_mul_inv, div_eq_mul_inv, mul_assoc, ← mul_assoc (weight f a)⁻¹,
          ENNReal.inv_mul_cancel h0 hta, one_mul]
    · rw [show inAny (a :: ls) e = inAny ls e by simp [inAny, ha]]
      simp [given, ha]

/-- C146: `sample(n)` of a truncated PDF, with the wrapped PDF `f` sampled correctly in each of the limits: it has `n` events, and each
event is expected in proportion to the truncated PDF, which is proportional to `f` inside the limits and zero outside. -/
theorem truncated_sample_follows {m : ℕ → List ℝ≥0∞ → PMF (List ℕ)} (hm : Multinomial m) (f : E → ℝ≥0∞) (limits : List (E → Bool))
    (hne : limits ≠ []) (hdis : limits.Pairwise (fun a b => ∀ e, ¬ (a e = true ∧ b e = true)))
    (h0 : weight f (inAny limits) ≠ 0) (ht : weight f (inAny limits) ≠ ⊤) (pieces : List (ℕ → PMF (List E)))
    (hp : List.Forall₂ (fun s l => Follows s (given f l)) pieces limits) :
    Follows (truncSample m (limits.map (weight f)) pieces) (given f (inAny limits)) := by
  by_cases h1 : 1 < pieces.length
  · have hW := weight_inAny f limits hdis
    have hfin : ∀ l ∈ limits, weight f l ≠ ⊤ := by
      intro l hl
      refine ne_top_of_le_ne_top ht (ENNReal.tsum_le_tsum (fun e => ?_))
      by_cases he : l e = true
      · rw [show inAny limits e = true from List.any_eq_true.2 ⟨l, hl, he⟩, he]
      · simp [he]
    have hsum : (((limits.map (weight f)).map (· / (limits.map (weight f)).sum))).sum = 1 := by
      rw [← hW]
      have : ∀ (l : List ℝ≥0∞) (w : ℝ≥0∞), (l.map (· / w)).sum = l.sum / w := by
        intro l w
        induction l with
        | nil => simp
        | cons a l ih => simp [ih, ENNReal.add_div]
      rw [this, ← hW]
      exact ENNReal.div_self h0 ht
    have hF := sum_sample_follows hm (sh := PMF.pure) (fun l l' h => by
        rw [show l' = l by simpa using h]) ((limits.map (weight f)).map (· / (limits.map (weight f)).sum)) hsum pieces
        (limits.map (given f)) (by simp [hp.length_eq]) ((List.forall₂_map_right_iff).2 hp)
    have hmix : mixture ((limits.map (weight f)).map (· / (limits.map (weight f)).sum)) (limits.map (given f))
        = given f (inAny limits) := by
      funext e
      rw [mixture_pieces f limits _ (hW ▸ h0) hfin hdis, ← hW]
      rfl
    rw [hmix] at hF
    have heq : truncSample m (limits.map (weight f)) pieces
        = sumSample m PMF.pure ((limits.map (weight f)).map (· / (limits.map (weight f)).sum)) pieces := by
      funext n
      unfold truncSample sumSample
      simp only [h1, if_true, PMF.bind_pure]
      congr 1
      funext c
      rw [← List.zip_swap, List.map_map]
      rfl
    rw [heq]
    exact hF
  · cases hp with
    | nil => exact absurd rfl hne
    | @cons s l ss ls hs hss =>
      cases hss with
      | cons _ _ => simp at h1
      | nil =>
        have h2 : truncSample m ([l].map (weight f)) [s] = s := by
          funext n
          unfold truncSample
          simp [together]
        rw [h2, show inAny [l] = l by funext e; simp [inAny]]
        exact hs

/-- C146: all events are inside the truncation limits. -/
theorem truncated_sample_inside {m : ℕ → List ℝ≥0∞ → PMF (List ℕ)} (integrals : List ℝ≥0∞) (limits : List (E → Bool))
    (pieces : List (ℕ → PMF (List E)))
    (hp : List.Forall₂ (fun s l => ∀ n, ∀ x ∈ (s n).support, ∀ e ∈ x, l e = true) pieces limits) (n : ℕ) :
    ∀ x ∈ (truncSample m integrals pieces n).support, ∀ e ∈ x, inAny limits e = true := by
  intro x hx e he
  unfold truncSample at hx
  dsimp only at hx
  rw [PMF.mem_support_bind_iff] at hx
  obtain ⟨c, -, hx⟩ := hx
  obtain ⟨ls, rfl, hls⟩ := mem_together hx
  obtain ⟨y, hy, he⟩ := List.mem_flatten.1 he
  obtain ⟨i, hi, rfl⟩ := List.getElem_of_mem hy
  have hi' : i < ((c.zip pieces).map (fun t => t.2 t.1)).length := hls.length_eq ▸ hi
  have := (List.forall₂_iff_get.1 hls).2 i hi hi'
  simp only [List.get_eq_getElem, List.getElem_map, List.getElem_zip] at this
  have hip : i < pieces.length := by simp at hi'; omega
  have hil : i < limits.length := hp.length_eq ▸ hip
  have h2 := (List.forall₂_iff_get.1 hp).2 i hip hil _ _ this e he
  rw [inAny, List.any_eq_true]
  exact ⟨limits[i], List.getElem_mem _, h2⟩

/-! ## C143 -/

/-- The PDFs for which it works, with their probabilities `P` in the limits: those that are sampled as a whole (no functor, or
no daughter is extended), and those whose `yield · P` is the sum of the daughters' (the sums that get their yield from the
daughters). -/
inductive Additive (P : Node E → E → ℝ≥0∞) : Node E → Prop
  | plain (y : ℝ≥0∞) (s : ℕ → PMF (List E)) (ds : List (Node E)) (hy : y ≠ ⊤) (hs : Follows s (P (.mk (some y) false s ds))) :
      Additive P (.mk (some y) false s ds)
  | whole (y : ℝ≥0∞) (s : ℕ → PMF (List E)) (ds : List (Node E)) (hy : y ≠ ⊤) (hs : Follows s (P (.mk (some y) true s ds)))
      (hne : ds ≠ []) (hd : ∀ d ∈ ds, d.isExtended = false) : Additive P (.mk (some y) true s ds)
  | sum (y : ℝ≥0∞) (s : ℕ → PMF (List E)) (ds : List (Node E)) (hd : ∀ d ∈ ds, Additive P d)
      (hP : ∀ e, y * P (.mk (some y) true s ds) e = (ds.map (fun d => d.yield.getD 0 * P d e)).sum) :
      Additive P (.mk (some y) true s ds)

theorem Additive.extended {P : Node E → E → ℝ≥0∞} {p : Node E} (h : Additive P p) : p.isExtended = true := by
  cases h <;> rfl

/-- What is expected of the sampling of the extracted PDFs. -/
theorem extract_mean {P : Node E → E → ℝ≥0∞} {p : Node E} (h : Additive P p) :
    ∃ ps, extract p = .ok ps ∧ (∀ q ∈ ps, q.yield.getD 0 ≠ ⊤ ∧ Follows q.sampler (P q))
      ∧ ∀ e, (ps.map (fun q => q.yield.getD 0 * P q e)).sum = p.yield.getD 0 * P p e := by
  induction h with
  | plain y s ds hy hs =>
    refine ⟨[.mk (some y) false s ds], by simp [extract], ?_, by simp⟩
    intro q hq
    rw [List.mem_singleton] at hq
    subst hq
    exact ⟨hy, hs⟩
  | whole y s ds hy hs hne hd =>
    have h1 : ds.all (·.isExtended) = false := by
      obtain ⟨d, hm⟩ := List.exists_mem_of_ne_nil _ hne
      rw [List.all_eq_false]
      exact ⟨d, hm, by simp [hd d hm]⟩
    have h2 : ds.all (fun d => !d.isExtended) = true := by
      rw [List.all_eq_true]
      intro d hm
      simp [hd d hm]
    refine ⟨[.mk (some y) true s ds], by simp [extract, h1, h2], ?_, by simp⟩
    intro q hq
    rw [List.mem_singleton] at hq
    subst hq
    exact ⟨hy, hs⟩
  | sum y s ds hd hP ih =>
    have h1 : ds.all (·.isExtended) = true := List.all_eq_true.2 (fun d hm => (hd d hm).extended)
    have h2 : ∀ ds : List (Node E), (∀ d ∈ ds, ∃ ps, extract d = .ok ps ∧ (∀ q ∈ ps, q.yield.getD 0 ≠ ⊤ ∧ Follows q.sampler (P q))
        ∧ ∀ e, (ps.map (fun q => q.yield.getD 0 * P q e)).sum = d.yield.getD 0 * P d e) →
        ∃ ps, extractAll ds = .ok ps ∧ (∀ q ∈ ps, q.yield.getD 0 ≠ ⊤ ∧ Follows q.sampler (P q))
          ∧ ∀ e, (ps.map (fun q => q.yield.getD 0 * P q e)).sum = (ds.map (fun d => d.yield.getD 0 * P d e)).sum := by
      intro ds
      induction ds with
      | nil => exact fun _ => ⟨[], by simp [extractAll], by simp, by simp⟩
      | cons d ds ihd =>
        intro h
        obtain ⟨a, ha, hqa, hea⟩ := h d List.mem_cons_self
        obtain ⟨b, hb, hqb, heb⟩ := ihd (fun d' h' => h d' (List.mem_cons_of_mem _ h'))
        refine ⟨a ++ b, by simp [extractAll, ha, hb, except_bind_ok, except_pure], ?_, ?_⟩
        · intro q hq
          rcases List.mem_append.1 hq with hq | hq
          · exact hqa q hq
          · exact hqb q hq
        · intro e
          rw [List.map_append, List.sum_append, hea, heb, List.map_cons, List.sum_cons]
    obtain ⟨ps, hps, hq, he⟩ := h2 ds ih
    refine ⟨ps, by simp [extract, h1, hps], hq, fun e => ?_⟩
    rw [he, ← hP]
    rfl

theorem expected_poisson {poisson : ℝ≥0∞ → PMF ℕ} (hpo : Poisson poisson) {y : ℝ≥0∞} (hy : y ≠ ⊤) {s : ℕ → PMF (List E)}
    {f : E → ℝ≥0∞} (hs : Follows s f) (e : E) : expected ((poisson y).bind s) e = y * f e := by
  unfold expected
  rw [expect_bind]
  conv_rhs => rw [← hpo y hy, ← expect_mul]
  exact expect_congr _ (fun k _ => hs.mean k e)

/-- C143, the part that holds: `sample()` of an extended PDF, for trees of PDFs as described at `Additive`.  Each event is expected
with its yield times its probability. Missing from the full claim: the cases of `extended_sampling_truncated_violated`,
`extended_sampling_fracs_violated`, `extended_sampling_mixed_violated`. -/
theorem extended_sampling_partial {P : Node E → E → ℝ≥0∞} {poisson : ℝ≥0∞ → PMF ℕ} (hpo : Poisson poisson) {p : Node E}
    (h : Additive P p) :
    ∃ s, sample poisson p .none = .ok s ∧ ∀ e, expected s e = p.yield.getD 0 * P p e := by
  obtain ⟨ps, hps, hq, he⟩ := extract_mean h
  refine ⟨together (ps.map (fun q => (poisson (q.yield.getD 0)).bind q.sampler)), ?_, fun e => ?_⟩
  · unfold sample
    rw [sample_n_partial _ _ (fun s hs => by cases hs)]
    simp [documentedN, h.extended, extendedSampling, hps, except_bind_ok, except_pure]
  · rw [expected_together, ← he e, List.map_map]
    congr 1
    refine List.map_congr_left (fun q hqm => ?_)
    obtain ⟨hy, hf⟩ := hq q hqm
    exact expected_poisson hpo hy hf e

/-- The `yield · P` of a `SumPDF` without fractions is the sum of the daughters': its yield is the sum of the yields and its
fractions are their parts (`Functor.preprocessInitSum`). -/
theorem auto_sum_additive (P : Node E → E → ℝ≥0∞) (s : ℕ → PMF (List E)) (ds : List (Node E)) (hd : ∀ d ∈ ds, Additive P d)
    (h0 : (ds.map (fun d => d.yield.getD 0)).sum ≠ 0) (ht : (ds.map (fun d => d.yield.getD 0)).sum ≠ ⊤)
    (hP : ∀ e, P (.mk (some (ds.map (fun d => d.yield.getD 0)).sum) true s ds) e
      = mixture (ds.map (fun d => d.yield.getD 0 / (ds.map (fun d => d.yield.getD 0)).sum)) (ds.map P) e) :
    Additive P (.mk (some (ds.map (fun d => d.yield.getD 0)).sum) true s ds) := by
  refine .sum _ s ds hd (fun e => ?_)
  rw [hP e]
  generalize (ds.map (fun d => d.yield.getD 0)).sum = y at h0 ht
  clear hP hd
  induction ds with
  | nil => simp [mixture]
  | cons d ds ih =>
    simp only [mixture, List.map_cons, List.zip_cons_cons, List.sum_cons] at ih ⊢
    rw [mul_add, ih, ← mul_assoc, ENNReal.mul_div_cancel h0 ht]

/-- C143 for the sums that get their yield from their daughters. -/
theorem extended_sampling_auto_sum {P : Node E → E → ℝ≥0∞} {poisson : ℝ≥0∞ → PMF ℕ} (hpo : Poisson poisson)
    (s : ℕ → PMF (List E)) (ds : List (Node E)) (hd : ∀ d ∈ ds, Additive P d)
    (h0 : (ds.map (fun d => d.yield.getD 0)).sum ≠ 0) (ht : (ds.map (fun d => d.yield.getD 0)).sum ≠ ⊤)
    (hP : ∀ e, P (.mk (some (ds.map (fun d => d.yield.getD 0)).sum) true s ds) e
      = mixture (ds.map (fun d => d.yield.getD 0 / (ds.map (fun d => d.yield.getD 0)).sum)) (ds.map P) e) :
    ∃ r, sample poisson (.mk (some (ds.map (fun d => d.yield.getD 0)).sum) true s ds) .none = .ok r
      ∧ ∀ e, expected r e = (ds.map (fun d => d.yield.getD 0)).sum
          * mixture (ds.map (fun d => d.yield.getD 0 / (ds.map (fun d => d.yield.getD 0)).sum)) (ds.map P) e := by
  obtain ⟨r, hr, he⟩ := extended_sampling_partial hpo (auto_sum_additive P s ds hd h0 ht hP)
  exact ⟨r, hr, fun e => by rw [he e, hP e]; rfl⟩

/-- A functor around one extended PDF is sampled as that PDF, whatever the functor is. -/
theorem extended_wrapper (poisson : ℝ≥0∞ → PMF ℕ) (y y' : ℝ≥0∞) (s s' : ℕ → PMF (List E)) :
    sample poisson (.mk (some y') true s' [.mk (some y) false s []]) .none = .ok (together [(poisson y).bind s]) := by
  unfold sample
  rw [sample_n_partial _ _ (fun s hs => by cases hs)]
  simp [documentedN, extendedSampling, extract, extractAll, Node.isExtended, Node.yield, Node.sampler, except_bind_ok, except_pure]

/-- C143 is false for a truncated PDF (`TruncatedPDF(pdf, limits)` with an extended `pdf`, which gives it a scaled yield): `sample()`
draws as many events as the wrapped PDF has, everywhere in its space, so also where the truncated PDF is zero.  This holds for
every wrapped PDF `f` with yield `y` and every truncation. -/
theorem extended_sampling_truncated_violated {poisson : ℝ≥0∞ → PMF ℕ} (hpo : Poisson poisson) (f : E → ℝ≥0∞) (limits : List (E → Bool))
    (y : ℝ≥0∞) (hy : y ≠ ⊤) (s s' : ℕ → PMF (List E)) (hs : Follows s f) (e : E) (hout : inAny limits e = false) :
    ∃ r, sample poisson (.mk (some (y * weight f (inAny limits))) true s' [.mk (some y) false s []]) .none = .ok r
      ∧ given f (inAny limits) e = 0 ∧ expected r e = y * f e := by
  refine ⟨_, extended_wrapper poisson y _ s s', by simp [given, hout], ?_⟩
  rw [expected_together]
  simp only [List.map_cons, List.map_nil, List.sum_cons, List.sum_nil, add_zero]
  exact expected_poisson hpo hy hs e

/-- C143 is false for a sum with given fractions and a given yield `y` if the daughters have yields as well: those are used instead,
with their proportions.  Here the daughters expect 1 and 2 events, whatever `y` and the fractions are; so with a yield of 100 an
event that has the same probability in both is expected 3/100 as often as it should be. -/
theorem extended_sampling_fracs_violated {poisson : ℝ≥0∞ → PMF ℕ} (hpo : Poisson poisson) (f1 f2 : E → ℝ≥0∞)
    (s s1 s2 : ℕ → PMF (List E)) (h1 : Follows s1 f1) (h2 : Follows s2 f2) :
    ∃ r, sample poisson (.mk (some 100) true s [.mk (some 1) false s1 [], .mk (some 2) false s2 []]) .none = .ok r
      ∧ (∀ e, expected r e = f1 e + 2 * f2 e)
      ∧ ∀ e, f1 e = f2 e → f1 e ≠ 0 → f1 e ≠ ⊤ → expected r e ≠ 100 * mixture [1 / 2, 1 / 2] [f1, f2] e := by
  have hr : ∀ e, expected (together [(poisson 1).bind s1, (poisson 2).bind s2]) e = f1 e + 2 * f2 e := by
    intro e
    rw [expected_together]
    simp only [List.map_cons, List.map_nil, List.sum_cons, List.sum_nil, add_zero]
    rw [expected_poisson hpo (by simp) h1, expected_poisson hpo (by simp) h2, one_mul]
  refine ⟨together [(poisson 1).bind s1, (poisson 2).bind s2], ?_, hr, fun e h12 h0 ht h => ?_⟩
  · unfold sample
    rw [sample_n_partial _ _ (fun s hs => by cases hs)]
    simp [documentedN, extendedSampling, extract, extractAll, Node.isExtended, Node.yield, Node.sampler, except_bind_ok, except_pure]
  · rw [hr e, ← h12] at h
    obtain ⟨v, hv⟩ : ∃ v : NNReal, f1 e = v := ⟨(f1 e).toNNReal, (ENNReal.coe_toNNReal ht).symm⟩
    simp only [mixture, List.zip_cons_cons, List.zip_nil_right, List.map_cons, List.map_nil, List.sum_cons, List.sum_nil, ← h12,
      hv, add_zero] at h
    rw [← add_mul, one_div, ENNReal.inv_two_add_inv_two, one_mul] at h
    have h' : v + 2 * v = 100 * v := by exact_mod_cast h
    have hv0 : v ≠ 0 := by
      rintro rfl
      exact h0 (by simp [hv])
    have : (3 : NNReal) = 100 := by
      apply mul_right_cancel₀ hv0
      rw [← h']
      ring
    norm_num at this

/-- C143 is false for an extended functor of which some daughters are extended and some are not, as a sum with fractions: an
`AssertionError`. -/
theorem extended_sampling_mixed_violated (poisson : ℝ≥0∞ → PMF ℕ) (y y1 : ℝ≥0∞) (s s1 s2 : ℕ → PMF (List E)) :
    sample poisson (.mk (some y) true s [.mk (some y1) false s1 [], .mk none false s2 []]) .none = .error .assertionError := by
  unfold sample
  rw [sample_n_partial _ _ (fun s hs => by cases hs)]
  simp [documentedN, extendedSampling, extract, Node.isExtended, Node.yield, except_bind_ok, Bind.bind, Except.bind]

/-- C142: `sample(n)` with a number draws exactly so many events, for extended PDFs as well, if the sampling of the PDF does. -/
theorem sample_count (poisson : ℝ≥0∞ → PMF ℕ) (p : Node E) (P : E → ℝ≥0∞) (h : Follows p.sampler P) (k : ℕ) :
    ∃ s, sample poisson p (.num k) = .ok s ∧ (∀ l ∈ s.support, l.length = k) ∧ ∀ e, expected s e = k * P e := by
  refine ⟨p.sampler k, ?_, h.length k, h.mean k⟩
  unfold sample
  rw [sample_n_partial _ _ (fun s hs => by cases hs)]
  simp [documentedN, except_bind_ok, except_pure]

end Zfit.Draw
