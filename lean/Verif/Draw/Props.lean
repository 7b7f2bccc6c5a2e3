import Verif.Draw.Lemmas
import Mathlib.Tactic.FieldSimp
import Mathlib.Tactic.NormNum

/-!
# Properties of `sample`

* C142 `sample_n_partial`, `sample_n_violated`
* C144 `sum_sample_follows`, `sum_sample_inside`
* C145 `sum_sample_limits_partial`, `sum_sample_limits_violated`
-/

namespace Zfit.Draw

open Zfit
open scoped ENNReal

variable {E : Type} [DecidableEq E]

/-! ## C142 -/

/-- The documentation of `n` in `sample` (basemodel.py:1160-1178): a number; nothing or "extended" for a Poisson number if the PDF
is extended; `NotExtendedPDFError` for "extended" if it is not, `ValueError` for another string or if the number is missing. -/
def documentedN (isExtended : Bool) : NArg → Except Err Plan
  | .num k => .ok (.count k)
  | .none => if isExtended then .ok .extended else .error .valueError
  | .str s =>
    if s = "extended" then (if isExtended then .ok .extended else .error .notExtended) else .error .valueError

/-- C142, the part that holds: for everything but a string, and for "extended" if the PDF is extended. Missing from the full claim: the
cases of `sample_n_violated`. -/
theorem sample_n_partial (isExtended : Bool) (n : NArg) (h : (∀ s, n = .str s → s = "extended" ∧ isExtended = true)) :
    sampleN isExtended n = documentedN isExtended n := by
  cases n with
  | none => cases isExtended <;> simp [sampleN, hookN, documentedN]
  | num k => simp [sampleN, hookN, documentedN]
  | str s =>
    obtain ⟨rfl, rfl⟩ := h s rfl
    simp [sampleN, hookN, documentedN]

example : ∀ s, NArg.str "extended" = .str s → s = "extended" ∧ true = true := fun _ h => ⟨(NArg.str.inj h).symm, rfl⟩

/-- C142 is false: any string is taken as "extended" if the PDF is extended; and "extended" is refused with `ValueError`
instead of `NotExtendedPDFError` if it is not. -/
theorem sample_n_violated :
    (∀ s, sampleN true (.str s) = .ok .extended) ∧ documentedN true (.str "100") = .error .valueError
      ∧ sampleN false (.str "extended") ≠ documentedN false (.str "extended") := by
  refine ⟨fun s => by simp [sampleN, hookN], by decide, by decide⟩

/-! ## C144, C145: sums -/

theorem flatten_length_sum (ls : List (List E)) : ls.flatten.length = (ls.map List.length).sum := by
  simp [List.length_flatten]

theorem sum_getElem_zip {c : List ℕ} {ds : List (ℕ → PMF (List E))} {ls : List (List E)}
    (hd : ∀ d ∈ ds, ∀ n, ∀ l ∈ (d n).support, l.length = n) (hlen : c.length = ds.length)
    (h : List.Forall₂ (fun x p => x ∈ PMF.support p) ls ((ds.zip c).map (fun t => t.1 t.2))) :
    (ls.map List.length).sum = c.sum := by
  induction ds generalizing c ls with
  | nil =>
    cases c with
    | nil =>
      simp only [List.zip_nil_left, List.map_nil] at h
      cases h
      rfl
    | cons => simp at hlen
  | cons d ds ih =>
    cases c with
    | nil => simp at hlen
    | cons k c =>
      simp only [List.zip_cons_cons, List.map_cons] at h
      cases h with
      | cons h1 h2 =>
        simp only [List.map_cons, List.sum_cons]
        rw [ih (fun d' hd' => hd d' (List.mem_cons_of_mem _ hd')) (by simpa using hlen) h2, hd d List.mem_cons_self _ _ h1]

theorem expected_shuffle {s : List E → PMF (List E)} (hs : Shuffle s) (p : PMF (List E)) (e : E) :
    expected (p.bind s) e = expected p e := by
  unfold expected
  rw [expect_bind]
  refine expect_congr p (fun l _ => ?_)
  rw [expect_congr (s l) (g := fun _ => (l.count e : ℝ≥0∞)) (fun l' hl' => by rw [(hs l l' hl').count_eq]), expect_const]

/-- The expected number of an event in samples of the drawn sizes. -/
theorem expect_zip (m : PMF (List ℕ)) (ds : List (ℕ → PMF (List E))) (ps : List (E → ℝ≥0∞)) (fracs : List ℝ≥0∞) (n : ℕ) (e : E)
    (hF : List.Forall₂ (fun d P => ∀ (n : ℕ) (e : E), expected (d n) e = n * P e) ds ps) (hlen : fracs.length = ds.length)
    (hc : ∀ c ∈ m.support, c.length = fracs.length)
    (hm : ∀ (i : ℕ) (h : i < fracs.length), expect m (fun c => ((c[i]?).getD 0 : ℕ)) = n * fracs[i]) :
    expect m (fun c => (((ds.zip c).map (fun t => expected (t.1 t.2) e))).sum) = n * mixture fracs ps e := by
  have key : ∀ (ds : List (ℕ → PMF (List E))) (ps : List (E → ℝ≥0∞)) (fr : List ℝ≥0∞) (k : ℕ),
      List.Forall₂ (fun d P => ∀ (n : ℕ) (e : E), expected (d n) e = n * P e) ds ps → fr.length = ds.length →
      (∀ (i : ℕ) (h : i < fr.length), expect m (fun c => ((c[i + k]?).getD 0 : ℕ)) = n * fr[i]) →
      (∀ c ∈ m.support, c.length = fr.length + k) →
      expect m (fun c => (((ds.zip (c.drop k)).map (fun t => expected (t.1 t.2) e))).sum) = n * mixture fr ps e := by
    intro ds
    induction ds with
    | nil =>
      intro ps fr k hF _ _ _
      cases hF
      simp only [List.zip_nil_left, List.map_nil, List.sum_nil, mixture, List.zip_nil_right, mul_zero]
      exact expect_const m 0
    | cons d ds ih =>
      intro ps fr k hF hlen hm hc
      cases hF with
      | @cons _ P _ ps h1 h2 =>
      cases fr with
      | nil => simp at hlen
      | cons f fr =>
        have hih := ih ps fr (k + 1) h2 (by simpa using hlen)
          (fun i hi => by
            have := hm (i + 1) (by simpa using hi)
            rw [show i + (k + 1) = i + 1 + k by omega]
            simpa using this)
          (fun c h => by rw [hc c h]; simp; omega)
        have h0 := hm 0 (by simp)
        simp only [Nat.zero_add, List.getElem_cons_zero] at h0
        have hstep : ∀ c ∈ m.support, (((d :: ds).zip (c.drop k)).map (fun t => expected (t.1 t.2) e)).sum
            = ((c[k]?).getD 0 : ℕ) * P e + (((ds.zip (c.drop (k + 1))).map (fun t => expected (t.1 t.2) e))).sum := by
          intro c hcs
          have hk : k < c.length := by rw [hc c hcs]; simp
          rw [List.drop_eq_getElem_cons hk]
          simp only [List.zip_cons_cons, List.map_cons, List.sum_cons, h1, List.getElem?_eq_getElem hk, Option.getD_some]
        rw [expect_congr m hstep, expect_add, expect_mul, h0, hih]
        simp only [mixture, List.zip_cons_cons, List.map_cons, List.sum_cons]
        rw [mul_add, mul_assoc]
  simpa using key ds ps fracs 0 hF hlen (by simpa using hm) (by simpa using hc)

/-- C144: `sample(n)` of a sum whose daughters' samplings follow their probabilities `ps` in the limits: it has `n` events, and
each event is expected in proportion to `Σ frac_i · p_i`. -/
theorem sum_sample_follows {m : ℕ → List ℝ≥0∞ → PMF (List ℕ)} (hm : Multinomial m) {sh : List E → PMF (List E)} (hs : Shuffle sh)
    (fracs : List ℝ≥0∞) (h1 : fracs.sum = 1) (daughters : List (ℕ → PMF (List E))) (ps : List (E → ℝ≥0∞))
    (hlen : fracs.length = daughters.length) (hd : List.Forall₂ Follows daughters ps) :
    Follows (sumSample m sh fracs daughters) (mixture fracs ps) := by
  constructor
  · intro n l hl
    unfold sumSample at hl
    rw [PMF.mem_support_bind_iff] at hl
    obtain ⟨c, hc, hl⟩ := hl
    rw [PMF.mem_support_bind_iff] at hl
    obtain ⟨l', hl', hl⟩ := hl
    rw [(hs l' l hl).length_eq]
    obtain ⟨ls, rfl, hls⟩ := mem_together hl'
    rw [flatten_length_sum, sum_getElem_zip ?_ ((hm.length n fracs h1 c hc).trans hlen) hls, hm.total n fracs h1 c hc]
    intro d hdm
    obtain ⟨P, hP⟩ : ∃ P, Follows d P := by
      clear hls hl' hl hlen
      induction hd with
      | nil => cases hdm
      | cons h _ ih =>
        rcases List.mem_cons.1 hdm with rfl | hdm
        · exact ⟨_, h⟩
        · exact ih hdm
    exact hP.length
  · intro n e
    unfold sumSample
    have : ∀ c, expected ((together ((daughters.zip c).map (fun t => t.1 t.2))).bind sh) e
        = ((daughters.zip c).map (fun t => expected (t.1 t.2) e)).sum := by
      intro c
      rw [expected_shuffle hs, expected_together, List.map_map]
      rfl
    show expect _ _ = _
    rw [expect_bind]
    refine (expect_congr _ (fun c _ => this c)).trans ?_
    exact expect_zip _ daughters ps fracs n e (hd.imp (fun _ _ h => h.mean)) hlen (hm.length n fracs h1) (hm.mean n fracs h1)

/-- C144: all events of the sample are events of the daughters' samples, so they are in the limits if those are. -/
theorem sum_sample_inside {m : ℕ → List ℝ≥0∞ → PMF (List ℕ)} {sh : List E → PMF (List E)} (hs : Shuffle sh)
    (fracs : List ℝ≥0∞) (daughters : List (ℕ → PMF (List E))) (inside : E → Prop)
    (hd : ∀ d ∈ daughters, ∀ n, ∀ l ∈ (d n).support, ∀ e ∈ l, inside e) (n : ℕ) :
    ∀ l ∈ (sumSample m sh fracs daughters n).support, ∀ e ∈ l, inside e := by
  intro l hl e he
  unfold sumSample at hl
  rw [PMF.mem_support_bind_iff] at hl
  obtain ⟨c, -, hl⟩ := hl
  rw [PMF.mem_support_bind_iff] at hl
  obtain ⟨l', hl', hl⟩ := hl
  have he := (hs l' l hl).mem_iff.1 he
  obtain ⟨ls, rfl, hls⟩ := mem_together hl'
  obtain ⟨x, hx, he⟩ := List.mem_flatten.1 he
  obtain ⟨i, hi, rfl⟩ := List.getElem_of_mem hx
  have hi' : i < ((daughters.zip c).map (fun t => t.1 t.2)).length := hls.length_eq ▸ hi
  have := (List.forall₂_iff_get.1 hls).2 i hi hi'
  simp only [List.get_eq_getElem, List.getElem_map, List.getElem_zip] at this
  exact hd _ (List.getElem_mem _) _ _ this e he

/-- The mixture of what the daughters are in a region is the mixture in the region, if all have the same weight in it. -/
theorem mixture_given (fracs : List ℝ≥0∞) (fs : List (E → ℝ≥0∞)) (region : E → Bool) (w : ℝ≥0∞)
    (h1 : fracs.sum = 1) (hlen : fracs.length = fs.length)
    (hw : ∀ f ∈ fs, weight f region = w) (e : E) :
    mixture fracs (fs.map (fun f => given f region)) e = given (mixture fracs fs) region e := by
  have hW : weight (mixture fracs fs) region = w := by
    have : ∀ (fr : List ℝ≥0∞) (fs : List (E → ℝ≥0∞)), fr.length = fs.length → (∀ f ∈ fs, weight f region = w) →
        weight (mixture fr fs) region = fr.sum * w := by
      intro fr
      induction fr with
      | nil =>
        intro fs hl _
        simp [weight, mixture]
      | cons a fr ih =>
        intro fs hl hw
        cases fs with
        | nil => simp at hl
        | cons f fs =>
          have h2 := ih fs (by simpa using hl) (fun g hg => hw g (List.mem_cons_of_mem _ hg))
          have h3 := hw f List.mem_cons_self
          rw [List.sum_cons, add_mul, ← h2, ← h3]
          unfold weight
          rw [← ENNReal.tsum_mul_left, ← ENNReal.tsum_add]
          refine tsum_congr (fun e => ?_)
          by_cases hr : region e = true <;> simp [hr, mixture]
    rw [this fracs fs hlen hw, h1, one_mul]
  unfold given
  rw [hW]
  by_cases hr : region e = true
  · simp only [hr, if_true]
    clear hW h1 hlen
    induction fracs generalizing fs with
    | nil => simp [mixture]
    | cons a fr ih =>
      cases fs with
      | nil => simp [mixture]
      | cons f fs =>
        have := ih fs (fun g hg => hw g (List.mem_cons_of_mem _ hg))
        simp only [mixture, List.map_cons, List.zip_cons_cons, List.sum_cons, hr, if_true] at this ⊢
        rw [this, ENNReal.add_div, hw f List.mem_cons_self, mul_div_assoc]
  · simp only [hr]
    have : ∀ (fr : List ℝ≥0∞) (fs : List (E → ℝ≥0∞)),
        mixture fr (fs.map (fun f => fun e => if region e then f e / weight f region else 0)) e = 0 := by
      intro fr
      induction fr with
      | nil => intro fs; simp [mixture]
      | cons a fr ih =>
        intro fs
        cases fs with
        | nil => simp [mixture]
        | cons f fs =>
          have := ih fs
          simp only [mixture, List.map_cons, List.zip_cons_cons, List.sum_cons] at this ⊢
          rw [this]
          simp [hr]
    simpa using this fracs fs

/-- C145, the part that holds: a sample of a sum in the limits `region` follows the PDF of the sum restricted to them, if each
daughter has the same part of its probability there (as for the full range of all daughters). Missing from the full claim: the cases of
`sum_sample_limits_violated`. -/
theorem sum_sample_limits_partial {m : ℕ → List ℝ≥0∞ → PMF (List ℕ)} (hm : Multinomial m) {sh : List E → PMF (List E)}
    (hs : Shuffle sh) (fracs : List ℝ≥0∞) (h1 : fracs.sum = 1) (daughters : List (ℕ → PMF (List E))) (fs : List (E → ℝ≥0∞))
    (hlen : fracs.length = daughters.length) (region : E → Bool)
    (hd : List.Forall₂ (fun d f => Follows d (given f region)) daughters fs)
    (w : ℝ≥0∞) (hw : ∀ f ∈ fs, weight f region = w) :
    Follows (sumSample m sh fracs daughters) (given (mixture fracs fs) region) := by
  have h := sum_sample_follows hm hs fracs h1 daughters (fs.map (fun f => given f region)) hlen
    ((List.forall₂_map_right_iff).2 hd)
  rwa [show mixture fracs (fs.map (fun f => given f region)) = given (mixture fracs fs) region from
    funext (mixture_given fracs fs region w h1 (hlen.trans hd.length_eq) hw)] at h

/-- A density on three points: one half each on the first and the last, nothing on the other; -/
noncomputable def twoPoints : Fin 3 → ℝ≥0∞ := ![1 / 2, 0, 1 / 2]
/-- and one on the point in the middle. -/
noncomputable def middle : Fin 3 → ℝ≥0∞ := ![0, 1, 0]
/-- Limits that leave out the last point. -/
def firstTwo : Fin 3 → Bool := ![true, true, false]

/-- C145 is false: half of the first density is in the limits and all of the second.  Given that an event is in the limits, it
is from the first with probability 1/3, but the sampling takes the fraction 1/2. -/
theorem sum_sample_limits_violated {m : ℕ → List ℝ≥0∞ → PMF (List ℕ)} (hm : Multinomial m)
    {sh : List (Fin 3) → PMF (List (Fin 3))} (hs : Shuffle sh) (d1 d2 : ℕ → PMF (List (Fin 3)))
    (h1 : Follows d1 (given twoPoints firstTwo)) (h2 : Follows d2 (given middle firstTwo)) :
    expected (sumSample m sh [1 / 2, 1 / 2] [d1, d2] 1) 0 = 1 / 2
      ∧ given (mixture [1 / 2, 1 / 2] [twoPoints, middle]) firstTwo 0 = 1 / 3
      ∧ ¬ Follows (sumSample m sh [1 / 2, 1 / 2] [d1, d2]) (given (mixture [1 / 2, 1 / 2] [twoPoints, middle]) firstTwo) := by
  have hsum : ([1 / 2, 1 / 2] : List ℝ≥0∞).sum = 1 := by
    simp [ENNReal.inv_two_add_inv_two]
  have hF := sum_sample_follows hm hs [1 / 2, 1 / 2] hsum [d1, d2] _ rfl (List.Forall₂.cons h1 (List.Forall₂.cons h2 List.Forall₂.nil))
  have hw1 : weight twoPoints firstTwo = 1 / 2 := by
    unfold weight
    rw [tsum_fintype, Fin.sum_univ_three]
    simp [twoPoints, firstTwo]
  have hg1 : given twoPoints firstTwo 0 = 1 := by
    unfold given
    rw [hw1]
    simp only [firstTwo, twoPoints, Matrix.cons_val_zero, if_true]
    exact ENNReal.div_self (by simp) (by simp)
  have hg2 : given middle firstTwo 0 = 0 := by
    simp [given, firstTwo, middle]
  have e1 : expected (sumSample m sh [1 / 2, 1 / 2] [d1, d2] 1) 0 = 1 / 2 := by
    rw [hF.mean 1 0]
    simp [mixture, hg1, hg2]
  have e2 : given (mixture [1 / 2, 1 / 2] [twoPoints, middle]) firstTwo 0 = 1 / 3 := by
    have hw : weight (mixture [1 / 2, 1 / 2] [twoPoints, middle]) firstTwo = 3 / 4 := by
      unfold weight
      rw [tsum_fintype, Fin.sum_univ_three]
      simp only [firstTwo, mixture, twoPoints, middle, Matrix.cons_val_zero, Matrix.cons_val_one, Matrix.cons_val,
        List.zip_cons_cons, List.zip_nil_right, List.map_cons, List.map_nil, List.sum_cons, List.sum_nil, if_true]
      rw [← ENNReal.toReal_eq_toReal_iff' (by finiteness) (by finiteness)]
      rw [ENNReal.toReal_add (by finiteness) (by finiteness), ENNReal.toReal_add (by finiteness) (by finiteness)]
      simp
      norm_num
    unfold given
    rw [hw]
    simp only [firstTwo, mixture, twoPoints, middle, Matrix.cons_val_zero,
        List.zip_cons_cons, List.zip_nil_right, List.map_cons, List.map_nil, List.sum_cons, List.sum_nil, if_true]
    rw [← ENNReal.toReal_eq_toReal_iff' (ENNReal.div_ne_top (by simp [ENNReal.mul_eq_top]) (by simp)) (ENNReal.div_ne_top (by simp) (by simp))]
    simp
    norm_num
  refine ⟨e1, e2, fun h => ?_⟩
  have := h.mean 1 0
  rw [e1, e2] at this
  rw [← ENNReal.toReal_eq_toReal_iff' (by finiteness) (by finiteness)] at this
  simp at this

end Zfit.Draw
