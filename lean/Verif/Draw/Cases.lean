import Verif.Draw.ExtProps
import Mathlib.Probability.ProbabilityMassFunction.Constructions
import Mathlib.Probability.Distributions.Poisson.Basic
import Mathlib.Algebra.BigOperators.Fin

/-! The libraries' distributions exist, and cases that meet the hypotheses of the theorems about `sample`. -/

namespace Zfit.Draw

open Zfit
open scoped ENNReal

variable {E : Type} [DecidableEq E]

/-- Independent events. -/
noncomputable def iid (p : PMF E) : ℕ → PMF (List E)
  | 0 => PMF.pure []
  | n + 1 => p.bind (fun e => (iid p n).bind (fun l => PMF.pure (e :: l)))

theorem iid_follows (p : PMF E) : Follows (iid p) p := by
  constructor
  · intro n
    induction n with
    | zero =>
      intro l hl
      have : l = [] := by simpa [iid] using hl
      simp [this]
    | succ n ih =>
      intro l hl
      unfold iid at hl
      rw [PMF.mem_support_bind_iff] at hl
      obtain ⟨e, -, hl⟩ := hl
      rw [PMF.mem_support_bind_iff] at hl
      obtain ⟨l', hl', hl⟩ := hl
      have : l = e :: l' := by simpa using hl
      simp [this, ih l' hl']
  · intro n e
    induction n with
    | zero => simp [iid, expected, expect_pure]
    | succ n ih =>
      have h : ∀ a : E, expect ((iid p n).bind (fun l => PMF.pure (a :: l))) (fun l => (l.count e : ℝ≥0∞))
          = (if a = e then 1 else 0) + n * p e := by
        intro a
        rw [expect_bind, ← ih]
        simp only [expect_pure, List.count_cons, Nat.cast_add]
        rw [expect_add, expect_const, add_comm]
        congr 1
        by_cases hae : a = e <;> simp [hae]
      show expect (p.bind (fun a => (iid p n).bind (fun l => PMF.pure (a :: l)))) (fun l => (l.count e : ℝ≥0∞)) = _
      rw [expect_bind]
      simp only [h]
      rw [expect_add, expect_const]
      have : expect p (fun a => if a = e then (1 : ℝ≥0∞) else 0) = p e := by
        unfold expect
        rw [tsum_eq_single e]
        · simp
        · intro b hb
          simp [hb]
      rw [this]
      push_cast
      rw [add_mul, one_mul, add_comm]

/-- A class drawn with the given probabilities. -/
noncomputable def categorical (probs : List ℝ≥0∞) (h : probs.sum = 1) : PMF (Fin probs.length) :=
  PMF.ofFintype (fun i => probs[i]) (by rw [← h]; exact (Fin.sum_univ_getElem probs))

/-- The multinomial distribution: how often each class is drawn in `n` independent draws. -/
noncomputable def multinomial (n : ℕ) (probs : List ℝ≥0∞) : PMF (List ℕ) :=
  if h : probs.sum = 1 then
    (iid (categorical probs h) n).bind (fun l => PMF.pure ((List.finRange probs.length).map (fun i => l.count i)))
  else PMF.pure []

theorem sum_counts {k : ℕ} (l : List (Fin k)) : ((List.finRange k).map (fun i => l.count i)).sum = l.length := by
  induction l with
  | nil => simp
  | cons a l ih =>
    have : ((List.finRange k).map (fun i => (a :: l).count i)).sum
        = ((List.finRange k).map (fun i => l.count i)).sum + ((List.finRange k).map (fun i => if a = i then 1 else 0)).sum := by
      rw [← List.sum_map_add]
      congr 1
      refine List.map_congr_left (fun i _ => ?_)
      rw [List.count_cons]
      by_cases h : a = i <;> simp [h]
    rw [this, ih, List.length_cons]
    congr 1
    rw [← List.ofFn_eq_map, List.sum_ofFn]
    simp

theorem multinomial_lawful : Multinomial multinomial := by
  constructor
  · intro n probs h c hc
    unfold multinomial at hc
    rw [dif_pos h, PMF.mem_support_bind_iff] at hc
    obtain ⟨l, -, hc⟩ := hc
    have : c = (List.finRange probs.length).map (fun i => l.count i) := by simpa using hc
    simp [this]
  · intro n probs h c hc
    unfold multinomial at hc
    rw [dif_pos h, PMF.mem_support_bind_iff] at hc
    obtain ⟨l, hl, hc⟩ := hc
    have : c = (List.finRange probs.length).map (fun i => l.count i) := by simpa using hc
    rw [this, sum_counts, (iid_follows _).length n l hl]
  · intro n probs h i hi
    unfold multinomial
    rw [dif_pos h, expect_bind]
    simp only [expect_pure]
    have := (iid_follows (categorical probs h)).mean n ⟨i, hi⟩
    unfold expected at this
    rw [show (categorical probs h) ⟨i, hi⟩ = probs[i] from rfl] at this
    rw [← this]
    refine expect_congr _ (fun l _ => ?_)
    simp [hi]

/-- The Poisson distribution. -/
noncomputable def poissonPmf (r : NNReal) : PMF ℕ :=
  ⟨fun n => ENNReal.ofReal (Real.exp (-r) * r ^ n / n.factorial), by
    apply ENNReal.hasSum_coe.mpr
    rw [← Real.toNNReal_one]
    exact (ProbabilityTheory.hasSum_one_poissonMeasure r).toNNReal (fun n => by positivity)⟩

theorem poissonPmf_mean (r : NNReal) : expect (poissonPmf r) (fun k => (k : ℝ≥0∞)) = r := by
  have hstep : ∀ n : ℕ, poissonPmf r (n + 1) * ((n + 1 : ℕ) : ℝ≥0∞) = r * poissonPmf r n := by
    intro n
    show ENNReal.ofReal _ * _ = _ * ENNReal.ofReal _
    rw [← ENNReal.ofReal_natCast, ← ENNReal.ofReal_coe_nnreal, ← ENNReal.ofReal_mul (by positivity),
      ← ENNReal.ofReal_mul (by positivity)]
    congr 1
    rw [Nat.factorial_succ]
    have : ((n.factorial : ℕ) : ℝ) ≠ 0 := by positivity
    push_cast
    field_simp
    ring
  unfold expect
  rw [tsum_eq_zero_add' ENNReal.summable]
  simp only [hstep]
  rw [ENNReal.tsum_mul_left, (poissonPmf r).tsum_coe]
  simp

theorem poisson_lawful : Poisson (fun y => poissonPmf y.toNNReal) := by
  intro y hy
  show expect (poissonPmf y.toNNReal) _ = y
  rw [poissonPmf_mean, ENNReal.coe_toNNReal hy]

theorem shuffle_lawful : Shuffle (PMF.pure : List E → PMF (List E)) := fun l l' h => by
  rw [show l' = l by simpa using h]

/-- Two events with probabilities. -/
noncomputable def coin : PMF Bool := PMF.ofFintype (fun _ => 1 / 2) (by
  rw [Fintype.sum_bool, one_div, ENNReal.inv_two_add_inv_two])

theorem half_sum : ([1 / 2, 1 / 2] : List ℝ≥0∞).sum = 1 := by simp [ENNReal.inv_two_add_inv_two]

/-- The hypotheses of `sum_sample_follows` are met. -/
example : Follows (sumSample multinomial PMF.pure [1 / 2, 1 / 2] [iid coin, iid (PMF.pure true)])
    (mixture [1 / 2, 1 / 2] [coin, PMF.pure true]) :=
  sum_sample_follows multinomial_lawful shuffle_lawful _ half_sum _ _ rfl
    (.cons (iid_follows _) (.cons (iid_follows _) .nil))

/-- The hypotheses of `sum_sample_inside` are met. -/
example : ∀ l ∈ (sumSample multinomial PMF.pure [1 / 2, 1 / 2] [iid (PMF.pure true), iid (PMF.pure true)] 7).support,
    ∀ e ∈ l, e = true := by
  refine sum_sample_inside shuffle_lawful _ _ (· = true) (fun d hd n l hl e he => ?_) 7
  have hd : d = iid (PMF.pure true) := by simpa using hd
  subst hd
  have h0 := (iid_follows (PMF.pure true)).mean n false
  by_contra hne
  have he' : e = false := by simpa using hne
  subst he'
  have h1 : (iid (PMF.pure true) n) l * (l.count false : ℝ≥0∞) = 0 := by
    have : expected (iid (PMF.pure true) n) false = 0 := by rw [h0]; simp
    exact ENNReal.tsum_eq_zero.1 this l
  rcases mul_eq_zero.1 h1 with h | h
  · exact (PMF.mem_support_iff _ _).1 hl h
  · have := List.count_pos_iff.2 he
    have : l.count false = 0 := by exact_mod_cast h
    omega

/-- The weights that a probability distribution has in all of the space. -/
theorem weight_univ (p : PMF E) : weight p (fun _ => true) = 1 := by
  unfold weight
  simp only [if_true]
  exact p.tsum_coe

theorem given_univ (p : PMF E) : given p (fun _ => true) = p := by
  funext e
  simp [given, weight_univ p]

/-- The hypotheses of `sum_sample_limits_partial` are met, for the full range. -/
example : Follows (sumSample multinomial PMF.pure [1 / 2, 1 / 2] [iid coin, iid (PMF.pure true)])
    (given (mixture [1 / 2, 1 / 2] [coin, PMF.pure true]) (fun _ => true)) :=
  sum_sample_limits_partial multinomial_lawful shuffle_lawful _ half_sum _ [coin, PMF.pure true] rfl _
    (.cons (by rw [given_univ]; exact iid_follows _) (.cons (by rw [given_univ]; exact iid_follows _) .nil)) 1
    (fun f hf => by
      rcases List.mem_cons.1 hf with rfl | hf
      · exact weight_univ _
      · rw [List.mem_singleton] at hf
        subst hf
        exact weight_univ _)

theorem given_twoPoints : given twoPoints firstTwo = PMF.pure 0 := by
  have hw : weight twoPoints firstTwo = 1 / 2 := by
    unfold weight
    rw [tsum_fintype, Fin.sum_univ_three]
    simp [twoPoints, firstTwo]
  funext e
  unfold given
  rw [hw]
  fin_cases e <;> simp [twoPoints, firstTwo, PMF.pure_apply]
  exact ENNReal.div_self (ENNReal.inv_ne_zero.2 ENNReal.ofNat_ne_top) (ENNReal.inv_ne_top.2 two_ne_zero)

theorem given_middle : given middle firstTwo = PMF.pure 1 := by
  have hw : weight middle firstTwo = 1 := by
    unfold weight
    rw [tsum_fintype, Fin.sum_univ_three]
    simp [middle, firstTwo]
  funext e
  unfold given
  rw [hw]
  fin_cases e <;> simp [middle, firstTwo, PMF.pure_apply]

/-- The hypotheses of `sum_sample_limits_violated` are met. -/
example : ¬ Follows (sumSample multinomial PMF.pure [1 / 2, 1 / 2] [iid (PMF.pure 0), iid (PMF.pure 1)])
    (given (mixture [1 / 2, 1 / 2] [twoPoints, middle]) firstTwo) :=
  (sum_sample_limits_violated multinomial_lawful shuffle_lawful _ _ (by rw [given_twoPoints]; exact iid_follows _)
    (by rw [given_middle]; exact iid_follows _)).2.2

/-- Two events that are truncation limits on their own. -/
def single (b : Bool) : Bool → Bool := (· == b)

theorem given_coin (b : Bool) : given coin (single b) = PMF.pure b := by
  have hw : weight coin (single b) = 1 / 2 := by
    unfold weight
    rw [tsum_fintype, Fintype.sum_bool]
    cases b <;> simp [coin, single]
  funext e
  unfold given
  rw [hw]
  cases b <;> cases e <;> simp [coin, single, PMF.pure_apply]
  all_goals exact ENNReal.div_self (ENNReal.inv_ne_zero.2 ENNReal.ofNat_ne_top) (ENNReal.inv_ne_top.2 two_ne_zero)

/-- The hypotheses of `truncated_sample_follows` are met, with two limits. -/
example : Follows (truncSample multinomial ([single true, single false].map (weight coin)) [iid (PMF.pure true), iid (PMF.pure false)])
    (given coin (inAny [single true, single false])) := by
  have hall : inAny [single true, single false] = fun _ => true := by
    funext e
    cases e <;> rfl
  refine truncated_sample_follows multinomial_lawful coin _ (by simp) ?_ ?_ ?_ _
    (.cons (by rw [given_coin]; exact iid_follows _) (.cons (by rw [given_coin]; exact iid_follows _) .nil))
  · simp [single]
  · rw [hall, weight_univ]
    simp
  · rw [hall, weight_univ]
    simp

/-- The hypotheses of `truncated_sample_inside` are met. -/
example : ∀ x ∈ (truncSample multinomial [1] [fun n => PMF.pure (List.replicate n true)] 5).support, ∀ e ∈ x,
    inAny [single true] e = true :=
  truncated_sample_inside [1] [single true] _
    (.cons (fun n x hx e he => by
      have : x = List.replicate n true := by simpa using hx
      subst this
      rw [List.eq_of_mem_replicate he]
      rfl) .nil) 5

/-- The hypotheses of `extended_sampling_partial` and of `extended_sampling_auto_sum` are met: a sum of a PDF with yield 1 and
one with yield 3. -/
example : ∃ r, sample (fun y => poissonPmf y.toNNReal)
      (.mk (some (1 + (3 + 0))) true (iid coin) [.mk (some 1) false (iid coin) [], .mk (some 3) false (iid coin) []]) .none = .ok r
      ∧ ∀ e, expected r e = (1 + (3 + 0)) * mixture [1 / (1 + (3 + 0)), 3 / (1 + (3 + 0))] [coin, coin] e := by
  refine extended_sampling_auto_sum (P := fun _ => coin) poisson_lawful (iid coin)
    [.mk (some 1) false (iid coin) [], .mk (some 3) false (iid coin) []] ?_ ?_ ?_ ?_
  · intro d hd
    rcases List.mem_cons.1 hd with rfl | hd
    · exact .plain _ _ _ (by simp) (iid_follows _)
    · rw [List.mem_singleton] at hd
      subst hd
      exact .plain _ _ _ (by simp) (iid_follows _)
  · simp [Node.yield]
  · simp [Node.yield]
  · intro e
    simp only [Node.yield, mixture, List.map_cons, List.map_nil, List.zip_cons_cons, List.zip_nil_right, List.sum_cons, List.sum_nil,
      Option.getD_some, add_zero]
    rw [← add_mul, ENNReal.div_add_div_same, ENNReal.div_self (by simp) (by simp), one_mul]

/-- A truncated PDF for which events are expected outside its limits. -/
example : ∃ r, sample (fun y => poissonPmf y.toNNReal)
      (.mk (some (6 * weight coin (inAny [single true]))) true (iid (PMF.pure true)) [.mk (some 6) false (iid coin) []]) .none = .ok r
      ∧ given coin (inAny [single true]) false = 0 ∧ expected r false = 6 * (1 / 2) :=
  extended_sampling_truncated_violated poisson_lawful coin [single true] 6 (by simp) (iid coin) (iid (PMF.pure true))
    (iid_follows _) false rfl

/-- The hypotheses of `extended_sampling_fracs_violated` are met. -/
example : ∃ r, sample (fun y => poissonPmf y.toNNReal)
      (.mk (some 100) true (iid coin) [.mk (some 1) false (iid coin) [], .mk (some 2) false (iid coin) []]) .none = .ok r
      ∧ expected r true ≠ 100 * mixture [1 / 2, 1 / 2] [coin, coin] true := by
  obtain ⟨r, hr, -, h⟩ := extended_sampling_fracs_violated poisson_lawful coin coin (iid coin) (iid coin) (iid coin)
    (iid_follows _) (iid_follows _)
  exact ⟨r, hr, h true rfl (by simp [coin]) (by simp [coin])⟩

end Zfit.Draw
