import Verif.Root.Model
import Mathlib.Tactic.FieldSimp
import Mathlib.Tactic.Linarith
import Mathlib.Tactic.Ring
import Mathlib.Tactic.Positivity

/-! Helper lemmas about Brent's root search. -/

namespace Zfit.Root

variable {K : Type} [Field K] [LinearOrder K] [IsStrictOrderedRing K]

/-- `x` lies between `a` and `b`, in either order. -/
def Btw (a b x : K) : Prop := min a b ≤ x ∧ x ≤ max a b

/-- State at the beginning of the loop body: either the two last estimates have opposite signs, or the contrapoint and
the last estimate have, and the best estimate lies between them. -/
def Pre (p : Params K) (l r : K) (s : State K) : Prop :=
  s.fbest = p.f s.best ∧ s.flast = p.f s.last ∧ Btw l r s.best ∧ Btw l r s.last ∧
    (s.flast * s.fbest < 0 ∨
      (s.fcontra = p.f s.contra ∧ s.flast * s.fcontra < 0 ∧ Btw l r s.contra ∧ Btw s.last s.contra s.best))

/-- State after the exchange. -/
def Mid (p : Params K) (l r : K) (s : State K) : Prop :=
  s.fbest = p.f s.best ∧ s.flast = p.f s.last ∧ s.fcontra = p.f s.contra ∧
    Btw l r s.best ∧ Btw l r s.last ∧ Btw l r s.contra ∧ s.fcontra ≠ 0 ∧
    (s.fbest ≠ 0 → s.fbest * s.fcontra < 0) ∧
    (s.fbest ≠ 0 → s.last = s.contra ∨ (0 < s.flast * s.fbest ∧ (s.last - s.best) * (s.contra - s.best) ≤ 0))

theorem btw_mul (a b x : K) (h : Btw a b x) : (a - x) * (b - x) ≤ 0 := by
  obtain ⟨h1, h2⟩ := h
  rcases le_total a b with hab | hab
  · rw [min_eq_left hab] at h1
    rw [max_eq_right hab] at h2
    exact mul_nonpos_of_nonpos_of_nonneg (by linarith) (by linarith)
  · rw [min_eq_right hab] at h1
    rw [max_eq_left hab] at h2
    exact mul_nonpos_of_nonneg_of_nonpos (by linarith) (by linarith)

theorem btw_trans {l r a b x : K} (ha : Btw l r a) (hb : Btw l r b) (hx : Btw a b x) : Btw l r x :=
  ⟨(le_min ha.1 hb.1).trans hx.1, hx.2.trans (max_le ha.2 hb.2)⟩

theorem replaceContra_mid (p : Params K) (l r : K) (s : State K) (h : Pre p l r s) (hf : s.finished = false) :
    Mid p l r (replaceContra s) := by
  obtain ⟨h1, h2, h3, h4, h5⟩ := h
  by_cases hc : s.flast * s.fbest < 0
  · have hl0 : s.flast ≠ 0 := by rintro e; rw [e, zero_mul] at hc; exact lt_irrefl _ hc
    have e : replaceContra s =
        { s with contra := s.last, fcontra := s.flast, stepLast := s.best - s.last, stepBest := s.best - s.last } := by
      simp only [replaceContra, hf, Bool.not_false, Bool.true_and, decide_eq_true hc, if_true]
    rw [e]
    exact ⟨h1, h2, h2, h3, h4, h4, hl0, fun _ => by rw [mul_comm]; exact hc, fun _ => Or.inl rfl⟩
  · have e : replaceContra s = s := by
      simp only [replaceContra, hf, decide_eq_false hc, Bool.and_false, Bool.false_eq_true, if_false]
      rw [← hf]
    rw [e]
    obtain ⟨h6, h7, h8, h9⟩ := h5.resolve_left hc
    have hc0 : s.fcontra ≠ 0 := by rintro e; rw [e, mul_zero] at h7; exact lt_irrefl _ h7
    have hl0 : s.flast ≠ 0 := by rintro e; rw [e, zero_mul] at h7; exact lt_irrefl _ h7
    refine ⟨h1, h2, h6, h3, h4, h8, hc0, ?_, ?_⟩
    · intro hb
      have h10 : 0 < s.flast * s.fbest := lt_of_le_of_ne (not_lt.1 hc) (mul_ne_zero hl0 hb).symm
      have h11 : 0 < s.flast * s.flast := mul_self_pos.2 hl0
      by_contra h12
      have h13 : 0 ≤ s.fbest * s.fcontra := not_lt.1 h12
      nlinarith
    · intro hb
      right
      exact ⟨lt_of_le_of_ne (not_lt.1 hc) (mul_ne_zero hl0 hb).symm, btw_mul _ _ _ h9⟩

theorem replaceContra_finished (s : State K) : (replaceContra s).finished = s.finished := rfl
theorem replaceContra_iters (s : State K) : (replaceContra s).iters = s.iters := rfl
theorem replaceBest_finished (s : State K) : (replaceBest s).finished = s.finished := rfl
theorem replaceBest_iters (s : State K) : (replaceBest s).iters = s.iters := rfl

theorem replaceBest_mid (p : Params K) (l r : K) (s : State K) (h : Mid p l r s) (hf : s.finished = false) :
    Mid p l r (replaceBest s) := by
  by_cases hc : |s.fcontra| < |s.fbest|
  · have e : replaceBest s =
        { s with best := s.contra, last := s.best, contra := s.best, fbest := s.fcontra, flast := s.fbest, fcontra := s.fbest } := by
      simp only [replaceBest, hf, Bool.not_false, Bool.true_and, decide_eq_true hc, if_true]
    rw [e]
    obtain ⟨h1, h2, h3, h4, h5, h6, h7, h8, h9⟩ := h
    have hb0 : s.fbest ≠ 0 := by
      rintro e0
      rw [e0, abs_zero] at hc
      exact absurd hc (not_lt.2 (abs_nonneg _))
    exact ⟨h3, h1, h1, h6, h4, h4, hb0, fun _ => by rw [mul_comm]; exact h8 hb0, fun _ => Or.inl rfl⟩
  · have e : replaceBest s = s := by
      simp only [replaceBest, hf, decide_eq_false hc, Bool.and_false, Bool.false_eq_true, if_false]
      rw [← hf]
    rw [e]
    exact h

/-- A step towards the contrapoint, not beyond it. -/
theorem btw_step (b c d : K) (h1 : 0 ≤ d * (c - b)) (h2 : |d| ≤ |c - b|) : Btw b c (b + d) := by
  unfold Btw
  rcases lt_trichotomy c b with h | h | h
  · rw [min_eq_right h.le, max_eq_left h.le]
    rw [abs_of_neg (sub_neg.2 h)] at h2
    have := neg_abs_le d
    have hd : d ≤ 0 := by
      by_contra h3
      have := mul_neg_of_pos_of_neg (not_le.1 h3) (sub_neg.2 h)
      linarith
    constructor <;> linarith
  · have : |d| ≤ 0 := by rw [h, sub_self, abs_zero] at h2; exact h2
    have hd : d = 0 := abs_eq_zero.1 (le_antisymm this (abs_nonneg _))
    rw [hd, h, add_zero]
    simp
  · rw [min_eq_left h.le, max_eq_right h.le]
    rw [abs_of_pos (sub_pos.2 h)] at h2
    have := le_abs_self d
    have hd : 0 ≤ d := by
      by_contra h3
      have := mul_neg_of_neg_of_pos (not_le.1 h3) (sub_pos.2 h)
      linarith
    constructor <;> linarith

theorem secant_direction (b c fb fc : K) (h : fb * fc < 0) : 0 ≤ secantStep b c fb fc * (c - b) := by
  unfold secantStep
  have hne : fb - fc ≠ 0 := by
    intro h0
    have : fb = fc := by linarith
    rw [this] at h
    exact absurd h (not_lt.2 (mul_self_nonneg _))
  have e : -fb * (b - c) / (fb - fc) * (c - b) = (fb * (fb - fc)) * (c - b) ^ 2 / (fb - fc) ^ 2 := by
    field_simp
    ring
  rw [e]
  apply div_nonneg _ (sq_nonneg _)
  apply mul_nonneg _ (sq_nonneg _)
  nlinarith [mul_self_nonneg fb]

theorem quadratic_direction (b la c fb fl fc : K) (hbc : fb * fc < 0) (hlb : 0 < fl * fb) (habs : |fb| < |fl|)
    (hord : (la - b) * (c - b) ≤ 0) (hlb' : la ≠ b) (hcb : c ≠ b) :
    0 ≤ quadraticStep fb fl fc b la c * (c - b) := by
  have hb0 : fb ≠ 0 := by rintro rfl; rw [zero_mul] at hbc; exact lt_irrefl _ hbc
  have hlc : fl * fc < 0 := by
    have : 0 < fb * fb := mul_self_pos.2 hb0
    by_contra h
    have := not_lt.1 h
    nlinarith
  have h1 : fc - fl ≠ 0 := by
    intro h0
    have : fc = fl := by linarith
    rw [this] at hlc
    exact absurd hlc (not_lt.2 (mul_self_nonneg _))
  have h2 : fl - fb ≠ 0 := by
    intro h0
    have : fl = fb := by linarith
    rw [this] at habs
    exact lt_irrefl _ habs
  have h3 : fc - fb ≠ 0 := by
    intro h0
    have : fc = fb := by linarith
    rw [this] at hbc
    exact absurd hbc (not_lt.2 (mul_self_nonneg _))
  have h4 : la - b ≠ 0 := sub_ne_zero.2 hlb'
  have h5 : c - b ≠ 0 := sub_ne_zero.2 hcb
  have hden : (fc - fb) / (c - b) * ((fl - fb) / (la - b)) * (fc - fl) ≠ 0 :=
    mul_ne_zero (mul_ne_zero (div_ne_zero h3 h5) (div_ne_zero h2 h4)) h1
  simp only [quadraticStep, divideNoNan, if_neg hden]
  have e : -fb * ((fc * ((fc - fb) / (c - b)) - fl * ((fl - fb) / (la - b))) /
      ((fc - fb) / (c - b) * ((fl - fb) / (la - b)) * (fc - fl))) * (c - b) =
      (-(fb * fc) * (-((la - b) * (c - b))) * (fb * (fl - fb)) * (fc - fb) ^ 2 * (fb * (fl - fc)) +
        (fb * fl) * (c - b) ^ 2 * (fb * (fb - fc)) * (fl - fb) ^ 2 * (fb * (fl - fc))) /
      (fb ^ 2 * (fl - fb) ^ 2 * (fc - fb) ^ 2 * (fc - fl) ^ 2) := by
    field_simp
    ring
  have g1 : 0 ≤ fb * (fl - fb) := by
    rcases lt_or_gt_of_ne hb0 with h | h
    · have : fl < 0 := by by_contra h'; nlinarith
      rw [abs_of_neg h, abs_of_neg this] at habs
      nlinarith
    · have : 0 < fl := by by_contra h'; nlinarith
      rw [abs_of_pos h, abs_of_pos this] at habs
      nlinarith
  have g2 : 0 ≤ fb * (fl - fc) := by nlinarith
  have g3 : 0 ≤ fb * (fb - fc) := by nlinarith [mul_self_nonneg fb]
  rw [e]
  apply div_nonneg _ (by positivity)
  apply add_nonneg
  · exact mul_nonneg (mul_nonneg (mul_nonneg (mul_nonneg (by linarith) (by linarith)) g1) (sq_nonneg _)) g2
  · exact mul_nonneg (mul_nonneg (mul_nonneg (mul_nonneg (by nlinarith) (sq_nonneg _)) g3) (sq_nonneg _)) g2

end Zfit.Root

namespace Zfit.Root

variable {K : Type} [Field K] [LinearOrder K] [IsStrictOrderedRing K]

/-- Tolerances as the documentation demands them. -/
def Tol (p : Params K) : Prop := 0 ≤ p.atol ∧ 0 ≤ p.rtol ∧ 0 ≤ p.ftol

theorem rootTolerance_nonneg (p : Params K) (hp : Tol p) (s : State K) : 0 ≤ rootTolerance p s := by
  unfold rootTolerance
  have := mul_nonneg hp.2.1 (abs_nonneg s.best)
  have := hp.1
  linarith

theorem abs_bisection (s : State K) : |bisectionStep s| = 1 / 2 * |s.contra - s.best| := by
  unfold bisectionStep
  rw [abs_mul, abs_of_pos (by norm_num : (0 : K) < 1 / 2)]

theorem not_finishes {p : Params K} {s : State K} (h : finishes p s = false) :
    s.finished = false ∧ s.iters < p.maxIter ∧ rootTolerance p s ≤ |bisectionStep s| ∧ p.ftol < |s.fbest| := by
  simp only [finishes, Bool.or_eq_false_iff, decide_eq_false_iff_not, not_le, not_lt, ge_iff_le] at h
  exact ⟨h.1.1.1, h.1.1.2, h.1.2, h.2⟩

theorem short_direction (p : Params K) (l r : K) (s : State K) (h : Mid p l r s)
    (hb : s.fbest ≠ 0) : 0 ≤ shortStep p s false * (s.contra - s.best) := by
  obtain ⟨h1, h2, h3, h4, h5, h6, h7, h8, h9⟩ := h
  by_cases hc : computeShort p s false = true
  · simp only [shortStep, hc, if_true]
    by_cases he : s.last = s.contra
    · rw [if_pos he]
      have e1 : s.flast = s.fcontra := by rw [h2, h3, he]
      rw [he, e1]
      exact secant_direction _ _ _ _ (h8 hb)
    · rw [if_neg he]
      obtain ⟨h10, h11⟩ := (h9 hb).resolve_left he
      simp only [computeShort, Bool.false_eq_true, if_false, Bool.and_eq_true, decide_eq_true_eq] at hc
      apply quadratic_direction _ _ _ _ _ _ (h8 hb) h10 hc.2 h11
      · intro e
        have : s.flast = s.fbest := by rw [h1, h2, e]
        rw [this] at hc
        exact lt_irrefl _ hc.2
      · intro e
        have e1 : s.fcontra = s.fbest := by rw [h1, h3, e]
        have := h8 hb
        rw [e1] at this
        exact absurd this (not_lt.2 (mul_self_nonneg _))
  · simp only [shortStep, Bool.not_eq_true _ ▸ hc, Bool.false_eq_true, if_false, zero_mul, le_refl]

theorem increment_good (p : Params K) (hp : Tol p) (l r : K) (s : State K) (h : Mid p l r s)
    (hf : finishes p s = false) :
    0 ≤ increment p s false * (s.contra - s.best) ∧ |increment p s false| ≤ |s.contra - s.best| := by
  obtain ⟨-, -, h3, h4⟩ := not_finishes hf
  have hb : s.fbest ≠ 0 := by
    intro e
    rw [e, abs_zero] at h4
    exact absurd h4 (not_lt.2 hp.2.2)
  have ht := rootTolerance_nonneg p hp s
  have habs := abs_bisection s
  have hge : 0 ≤ |s.contra - s.best| := abs_nonneg _
  have hbis : 0 ≤ bisectionStep s * (s.contra - s.best) := by
    unfold bisectionStep
    nlinarith [mul_self_nonneg (s.contra - s.best)]
  have hchosen : 0 ≤ chosenStep p s false * (s.contra - s.best) ∧ |chosenStep p s false| ≤ |s.contra - s.best| := by
    by_cases hu : useShort p s false = true
    · simp only [chosenStep, hu, Bool.false_eq_true, if_false, if_true]
      refine ⟨short_direction p l r s h hb, ?_⟩
      have hc : computeShort p s false = true := by
        by_contra hc
        simp only [useShort, Bool.not_eq_true _ ▸ hc, Bool.false_eq_true, if_false] at hu
      simp only [useShort, hc, if_true, decide_eq_true_eq, lt_min_iff] at hu
      rw [habs] at hu
      linarith [hu.1]
    · simp only [chosenStep, Bool.not_eq_true _ ▸ hu, Bool.false_eq_true, if_false]
      exact ⟨hbis, by rw [habs]; linarith⟩
  by_cases hr : rootTolerance p s < |chosenStep p s false|
  · simp only [increment, Bool.false_eq_true, if_false, if_pos hr]
    exact hchosen
  · simp only [increment, Bool.false_eq_true, if_false, if_neg hr]
    by_cases hpos : bisectionStep s > 0
    · rw [if_pos hpos]
      have : 0 < s.contra - s.best := by unfold bisectionStep at hpos; linarith
      refine ⟨mul_nonneg ht this.le, ?_⟩
      rw [abs_of_nonneg ht]
      linarith
    · rw [if_neg hpos]
      have : s.contra - s.best ≤ 0 := by unfold bisectionStep at hpos; linarith
      refine ⟨by nlinarith, ?_⟩
      rw [abs_neg, abs_of_nonneg ht]
      linarith

/-- Why the search stopped. -/
def End (p : Params K) (l r : K) (s : State K) : Prop :=
  s.fbest = p.f s.best ∧ Btw l r s.best ∧
    (|s.fbest| ≤ p.ftol ∨ p.maxIter ≤ s.iters ∨
      ∃ c, Btw l r c ∧ p.f s.best * p.f c < 0 ∧ |c - s.best| < p.atol + p.rtol * |s.best|)

theorem advance_good (p : Params K) (hp : Tol p) (l r : K) (s : State K) (h : Mid p l r s) (hf0 : s.finished = false) :
    ((advance p s).finished = false ∧ Pre p l r (advance p s) ∧ (advance p s).iters = s.iters + 1) ∨
    ((advance p s).finished = true ∧ End p l r (advance p s) ∧ (advance p s).iters = s.iters) := by
  cases hf : finishes p s with
  | false =>
    left
    obtain ⟨-, -, h3, h4⟩ := not_finishes hf
    have hb : s.fbest ≠ 0 := by
      intro e
      rw [e, abs_zero] at h4
      exact absurd h4 (not_lt.2 hp.2.2)
    have hinc := increment_good p hp l r s h hf
    obtain ⟨h1, h2, h3, h4, h5, h6, h7, h8, h9⟩ := h
    have hstep := btw_step s.best s.contra (increment p s false) hinc.1 hinc.2
    refine ⟨by simp [advance, hf], ?_, by simp [advance, hf]⟩
    simp only [advance, hf, Pre, Bool.false_eq_true, if_false]
    refine ⟨trivial, h1, btw_trans h4 h6 hstep, h4, Or.inr ⟨h3, h8 hb, h6, hstep⟩⟩
  | true =>
    right
    refine ⟨by simp [advance, hf], ?_, by simp [advance, hf]⟩
    obtain ⟨h1, h2, h3, h4, h5, h6, h7, h8, h9⟩ := h
    simp only [advance, hf, End, if_true, increment, add_zero]
    refine ⟨h1, h4, ?_⟩
    simp only [finishes, hf0, Bool.false_or, Bool.or_eq_true, decide_eq_true_eq, ge_iff_le] at hf
    rcases hf with (hf | hf) | hf
    · exact Or.inr (Or.inl hf)
    · by_cases h0 : s.fbest = 0
      · left
        rw [h0, abs_zero]
        exact hp.2.2
      · right; right
        refine ⟨s.contra, h6, by rw [← h1, ← h3]; exact h8 h0, ?_⟩
        rw [abs_bisection] at hf
        unfold rootTolerance at hf
        linarith
    · exact Or.inl hf

theorem body_good (p : Params K) (hp : Tol p) (l r : K) (s : State K) (h : Pre p l r s) (hf : s.finished = false) :
    ((body p s).finished = false ∧ Pre p l r (body p s) ∧ (body p s).iters = s.iters + 1) ∨
    ((body p s).finished = true ∧ End p l r (body p s) ∧ (body p s).iters = s.iters) :=
  advance_good p hp l r (replaceBest (replaceContra s))
    (replaceBest_mid p l r _ (replaceContra_mid p l r s h hf) hf) hf

theorem loop_good (p : Params K) (hp : Tol p) (l r : K) : ∀ (n : Nat) (s : State K), Pre p l r s → s.finished = false →
    s.iters + n = p.maxIter → End p l r (loop p n s) ∧ (loop p n s).iters ≤ p.maxIter := by
  intro n
  induction n with
  | zero =>
    intro s h _ hn
    exact ⟨⟨h.1, h.2.2.1, Or.inr (Or.inl (by simp only [loop]; omega))⟩, by simp only [loop]; omega⟩
  | succ n ih =>
    intro s h hf hn
    simp only [loop, hf, Bool.false_eq_true, if_false]
    rcases body_good p hp l r s h hf with ⟨b1, b2, b3⟩ | ⟨b1, b2, b3⟩
    · exact ih (body p s) b2 b1 (by omega)
    · have : loop p n (body p s) = body p s := by
        cases n with
        | zero => rfl
        | succ n => simp only [loop, b1, if_true]
      rw [this]
      exact ⟨b2, by omega⟩

theorem initial_values (p : Params K) (l r : K) :
    (initial p l r).fbest = p.f (initial p l r).best ∧ (initial p l r).flast = p.f (initial p l r).last ∧
    Btw l r (initial p l r).best ∧ Btw l r (initial p l r).last ∧
    (initial p l r).flast * (initial p l r).fbest = p.f l * p.f r := by
  have hl : Btw l r l := ⟨min_le_left _ _, le_max_left _ _⟩
  have hr : Btw l r r := ⟨min_le_right _ _, le_max_right _ _⟩
  by_cases h : |p.f l| < |p.f r|
  · simp only [initial, if_pos h]
    exact ⟨trivial, trivial, hl, hr, mul_comm _ _⟩
  · simp only [initial, if_neg h]
    exact ⟨trivial, trivial, hr, hl, trivial⟩

end Zfit.Root
