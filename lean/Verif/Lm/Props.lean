import Verif.Lm.Model
import Mathlib.Data.Matrix.Diagonal
import Mathlib.Algebra.BigOperators.Fin
import Mathlib.Algebra.Order.BigOperators.Group.Finset
import Mathlib.Tactic.Linarith
import Mathlib.Tactic.FieldSimp
import Mathlib.Tactic.Ring
import Mathlib.Tactic.Positivity
import Mathlib.Tactic.NormNum
import Mathlib.Tactic.FinCases
import Mathlib.Data.Rat.Defs
import Mathlib.Algebra.Order.Field.Rat
import Mathlib.LinearAlgebra.Matrix.Notation

/-! Properties of the Levenberg-Marquardt minimiser (C77, C78). -/

namespace Zfit.Lm

open Zfit Matrix

variable {σ K : Type} {n : ℕ} [Field K] [LinearOrder K] [IsStrictOrderedRing K]

/-- The evaluator answers, if it answers, with the loss `f` (no NaN was replaced by a made-up value). -/
structure Honest (ev : Ev σ K n) (f : (Fin n → K) → K) : Prop where
  value : ∀ s x v, (ev.value s x).2 = .ok v → v = some (f x)
  grad : ∀ s x r, (ev.valueGradient s x).2 = .ok r → r.1 = some (f x)

/-- Both remembered steps carry the loss at the point they lead to, and it is not above the loss at `x`. -/
structure Good (f : (Fin n → K) → K) (x : Fin n → K) (t : Tries K n) : Prop where
  best : ∀ b, t.best = some b → b.2.1 = f (x + b.1) ∧ b.2.1 ≤ f x
  scary : ∀ b, t.scary = some b → b.2.1 = f (x + b.1) ∧ b.2.1 ≤ f x

theorem valueOf_le {f : (Fin n → K) → K} {x : Fin n → K} {b : Option ((Fin n → K) × K × K)} {c : K}
    (hb : ∀ b', b = some b' → b'.2.1 = f (x + b'.1) ∧ b'.2.1 ≤ f x) (h : nanLe (some c) (valueOf (some (f x)) b) = true) :
    c ≤ f x := by
  cases b with
  | none => simpa [nanLe, valueOf] using h
  | some b =>
    have : c ≤ b.2.1 := by simpa [nanLe, valueOf] using h
    exact this.trans (hb b rfl).2

theorem valueOf_lt {f : (Fin n → K) → K} {x : Fin n → K} {b : Option ((Fin n → K) × K × K)} {c : K}
    (hb : ∀ b', b = some b' → b'.2.1 = f (x + b'.1) ∧ b'.2.1 ≤ f x) (h : nanLt (some c) (valueOf (some (f x)) b) = true) :
    c ≤ f x := by
  cases b with
  | none => exact le_of_lt (by simpa [nanLt, valueOf] using h)
  | some b =>
    have : c < b.2.1 := by simpa [nanLt, valueOf] using h
    exact this.le.trans (hb b rfl).2

theorem judge_good (c : Cfg K n) (f : (Fin n → K) → K) (x h : Fin n → K) (e : K) (t : Tries K n) (ht : Good f x t) :
    Good f x (judge c (some (f x)) e h (f (x + h)) t).1 := by
  have h1 : Good f x (if nanLe (some (f (x + h))) (valueOf (some (f x)) t.scary) then
      { t with scary := some (h, f (x + h), t.L) } else t) := by
    by_cases hc : nanLe (some (f (x + h))) (valueOf (some (f x)) t.scary) = true
    · rw [if_pos hc]
      refine ⟨ht.best, ?_⟩
      intro b hb
      simp only [Option.some.injEq] at hb
      subst hb
      exact ⟨rfl, valueOf_le ht.scary hc⟩
    · rw [if_neg hc]
      exact ht
  unfold judge
  simp only
  generalize (if nanLe (some (f (x + h))) (valueOf (some (f x)) t.scary) then
      { t with scary := some (h, f (x + h), t.L) } else t) = u at h1 ⊢
  by_cases hr : rhoBad c (some (f x)) (f (x + h)) e = true
  · rw [if_pos hr]
    split
    · exact ⟨h1.best, h1.scary⟩
    · exact ⟨h1.best, h1.scary⟩
  · rw [if_neg hr]
    by_cases hl : nanLt (some (f (x + h))) (valueOf (some (f x)) u.best) = true
    · rw [if_pos hl]
      have hb : ∀ b, some (h, f (x + h), u.L) = some b → b.2.1 = f (x + b.1) ∧ b.2.1 ≤ f x := by
        intro b hb
        simp only [Option.some.injEq] at hb
        subst hb
        exact ⟨rfl, valueOf_lt h1.best hl⟩
      split
      · exact ⟨hb, h1.scary⟩
      · exact ⟨hb, h1.scary⟩
    · rw [if_neg hl]
      split
      · exact ⟨h1.best, h1.scary⟩
      · exact h1

/-- Which step is kept.  The improvement of the loss divided by the improvement expected has to lie between the two bounds, both included; then the
step is kept if and only if the loss is smaller than at every step kept before (and at the start). A step out of the bounds is not kept. -/
theorem judge_keeps (c : Cfg K n) (init chi2 e : K) (h : Fin n → K) (t : Tries K n) (he : e ≠ 0) :
    let ok := c.rhoMin ≤ (init - chi2) / e ∧ (init - chi2) / e ≤ c.rhoMax
    let better := chi2 < t.best.elim init (·.2.1)
    (ok ∧ better → (judge c (some init) e h chi2 t).1.best = some (h, chi2, t.L)) ∧
    (¬(ok ∧ better) → (judge c (some init) e h chi2 t).1.best = t.best) := by
  intro ok better
  have hb : nanLt (some chi2) (valueOf (some init) t.best) = decide better := by
    unfold better
    cases t.best <;> rfl
  have hr : rhoBad c (some init) chi2 e = !decide ok := by
    by_cases h3 : c.rhoMin ≤ (init - chi2) / e <;> by_cases h4 : (init - chi2) / e ≤ c.rhoMax <;>
      simp [rhoBad, he, ok, h3, h4, not_lt.2, not_le.1]
  have hu : ∀ (b : Bool) (u : (Fin n → K) × K × K), (if b then { t with scary := some u } else t).best = t.best ∧
      (if b then { t with scary := some u } else t).L = t.L := by
    intro b u; cases b <;> exact ⟨rfl, rfl⟩
  obtain ⟨h1, h2⟩ := hu (nanLe (some chi2) (valueOf (some init) t.scary)) (h, chi2, t.L)
  unfold judge
  simp only [hr]
  generalize (if nanLe (some chi2) (valueOf (some init) t.scary) then { t with scary := some (h, chi2, t.L) } else t) = u at h1 h2 ⊢
  rw [h1, hb, h2]
  by_cases h3 : ok
  · by_cases h4 : better
    · simp only [h3, h4, decide_true, Bool.not_true, Bool.false_eq_true, if_false, if_true, and_self, true_implies, not_true_eq_false,
        false_implies, and_true]
      split_ifs <;> rfl
    · simp only [h3, h4, decide_true, decide_false, Bool.not_true, Bool.false_eq_true, if_false, and_false, false_implies, true_and,
        not_false_iff, true_implies]
      split_ifs <;> simp [h1]
  · simp only [h3, decide_false, Bool.not_false, if_true, false_and, false_implies, true_and, not_false_iff, true_implies]
    split_ifs <;> simp [h1]

theorem oneTry_good (c : Cfg K n) (ev : Ev σ K n) (f : (Fin n → K) → K) (hev : Honest ev f) (x g : Fin n → K)
    (H : Matrix (Fin n) (Fin n) K) (s : σ) (t : Tries K n) (ht : Good f x t) (r : Tries K n × Bool)
    (h : (oneTry c ev x (some (f x)) g H s t).2 = .ok r) : Good f x r.1 := by
  simp only [oneTry] at h
  cases hs : c.solve (damped H t.L) (-g) with
  | error e => rw [hs] at h; cases h
  | ok st =>
    rw [hs] at h
    simp only at h
    have hv := hev.value s (x + st)
    rcases hev' : ev.value s (x + st) with ⟨s', v⟩
    rw [hev'] at h hv
    cases v with
    | error e => cases h
    | ok v =>
      have := hv v rfl
      subst this
      simp only [Except.ok.injEq] at h
      subst h
      exact judge_good c f x st _ _ ⟨ht.best, ht.scary⟩

theorem tries_good (c : Cfg K n) (ev : Ev σ K n) (f : (Fin n → K) → K) (hev : Honest ev f) (x g : Fin n → K)
    (H : Matrix (Fin n) (Fin n) K) (k : ℕ) (s : σ) (t : Tries K n) (ht : Good f x t) (r : Tries K n)
    (h : (tries c ev x (some (f x)) g H k s t).2 = .ok r) : Good f x r := by
  induction k generalizing s t with
  | zero => simp only [tries, Except.ok.injEq] at h; subst h; exact ht
  | succ k ih =>
    simp only [tries] at h
    have h1 := oneTry_good c ev f hev x g H s t ht
    rcases ho : oneTry c ev x (some (f x)) g H s t with ⟨s', o⟩
    rw [ho] at h h1
    cases o with
    | error e => cases h
    | ok o =>
      obtain ⟨t', b⟩ := o
      have h2 := h1 (t', b) rfl
      cases b with
      | true => simp only [Except.ok.injEq] at h; subst h; exact h2
      | false => exact ih s' t' h2 h

/-- One step of the minimiser: the reported value of the loss belongs to the point reached and is not above the loss at
the point left. -/
theorem step_not_worse (c : Cfg K n) (ev : Ev σ K n) (f : (Fin n → K) → K) (hev : Honest ev f) (s : σ) (x : Fin n → K)
    (L : K) (st : Step K n) (h : (mode0Step c ev s x L).2 = .ok (some st)) :
    st.val = f (x + st.h) ∧ st.val ≤ f x := by
  simp only [mode0Step] at h
  have h1 := hev.grad s x
  rcases hg : ev.valueGradient s x with ⟨s1, r⟩
  rw [hg] at h h1
  cases r with
  | error e => cases h
  | ok r =>
    obtain ⟨init, g⟩ := r
    have hi : init = some (f x) := h1 (init, g) rfl
    subst hi
    simp only at h
    rcases hh : ev.hessian s1 x with ⟨s2, r⟩
    rw [hh] at h
    cases r with
    | error e => cases h
    | ok H =>
      simp only at h
      have h2 := tries_good c ev f hev x g H 10 s2
        { L := L, best := none, scary := none, dir := .none, hess := H } ⟨fun b hb => by simp at hb, fun b hb => by simp at hb⟩
      rcases ht : tries c ev x (some (f x)) g H 10 s2 { L := L, best := none, scary := none, dir := .none, hess := H } with ⟨s3, r⟩
      rw [ht] at h h2
      cases r with
      | error e => cases h
      | ok t =>
        have h3 := h2 t rfl
        cases hb : t.best with
        | some b =>
          simp only [hb, Except.ok.injEq, Option.some.injEq] at h
          subst h
          exact h3.best b hb
        | none =>
          cases hs : t.scary with
          | some b =>
            simp only [hb, hs, Except.ok.injEq, Option.some.injEq] at h
            subst h
            exact h3.scary b hs
          | none => simp only [hb, hs, Except.ok.injEq] at h; cases h

/-- What holds of every result: `vs` are the losses of the points visited, latest first. -/
structure Sound (j : Job σ K n) (f : (Fin n → K) → K) (x : Fin n → K) (limit : ℕ) (r : Result K n) : Prop where
  values : ∃ vs : List K, r.history = vs.map some ∧ vs.Pairwise (· ≤ ·) ∧ vs.head? = some (f r.params) ∧
    vs.getLast? = some (f x) ∧ vs.length ≤ limit + 1
  fmin : r.fmin = some (f r.params)
  verdict : ∃ e, r.edm = some e ∧ (r.valid = true ↔ e < j.tol)

theorem iterate_sound (j : Job σ K n) (f : (Fin n → K) → K) (hev : Honest j.ev f) (hclip : ∀ x, f (j.clip x) = f x)
    (x0 : Fin n → K) (k : ℕ) (s : σ) (w : Walk K n) (vs : List K) (limit : ℕ) (hh : w.history = vs.map some)
    (hp : vs.Pairwise (· ≤ ·)) (hhd : vs.head? = some (f w.x)) (hl : vs.getLast? = some (f x0))
    (hk : vs.length + k ≤ limit + 1) (hlast : ∀ e, w.last = some e → ¬ e < j.tol) (r : Result K n)
    (h : (iterate j k s w).2 = .ok r) : Sound j f x0 limit r := by
  induction k generalizing s w vs with
  | zero => simp only [iterate] at h; cases h
  | succ k ih =>
    simp only [iterate] at h
    have h1 := fun st => step_not_worse j.cfg j.ev f hev s w.x w.L st
    rcases hm : mode0Step j.cfg j.ev s w.x w.L with ⟨s', o⟩
    rw [hm] at h h1
    cases o with
    | error e => cases h
    | ok o =>
      cases o with
      | none =>
        simp only [finish] at h
        cases hw : w.last with
        | none => rw [hw] at h; cases h
        | some e =>
          rw [hw] at h
          simp only [Except.ok.injEq] at h
          subst h
          have hd : w.history.head?.join = some (f (j.clip w.x)) := by
            rw [hh, List.head?_map, hhd, hclip]; rfl
          refine ⟨⟨vs, hh, hp, by rw [hclip]; exact hhd, hl, by omega⟩, hd, ⟨e, rfl, ?_⟩⟩
          simp only [Bool.false_eq_true, false_iff]
          exact hlast e hw
      | some st =>
        obtain ⟨h2, h3⟩ := h1 st rfl
        simp only at h
        cases hc : j.crit (w.x + st.h) st.grad st.hess with
        | error e => rw [hc] at h; cases h
        | ok e =>
          rw [hc] at h
          simp only at h
          have hp' : (st.val :: vs).Pairwise (· ≤ ·) := by
            refine List.pairwise_cons.2 ⟨?_, hp⟩
            intro a ha
            cases vs with
            | nil => simp at ha
            | cons b vs =>
              have hb : b = f w.x := by simpa using hhd
              rcases List.mem_cons.1 ha with rfl | ha
              · rw [hb]; exact h3
              · exact (hb ▸ h3).trans ((List.pairwise_cons.1 hp).1 a ha)
          have hl' : (st.val :: vs).getLast? = some (f x0) := by
            rw [List.getLast?_cons, hl]; rfl
          by_cases ht : e < j.tol
          · rw [if_pos ht] at h
            simp only [finish, Except.ok.injEq] at h
            subst h
            refine ⟨⟨st.val :: vs, by simp [hh], hp', by simp [hclip, h2], hl', by simp; omega⟩, ?_, ⟨e, rfl, by simp [ht]⟩⟩
            simp [hclip, h2]
          · rw [if_neg ht] at h
            refine ih s' _ (st.val :: vs) (by simp [hh]) hp' (by simp [h2]) hl' (by simp; omega) ?_ h
            intro e' he'
            simp only [Option.some.injEq] at he'
            rw [← he']
            exact ht

/-- C77. For a loss `f` that sees the parameters clipped to their limits and is never NaN where it is evaluated: if
Levenberg-Marquardt returns a result, then the losses of the points visited never increase, the reported minimum is the loss
at the reported parameters and not above the loss at the start, no more than the allowed iterations were made, and the
result is valid exactly if the reported criterion is below the tolerance. Missing from the full statement: losses that
are NaN somewhere (`lm_accepts_nan_violated`), and that some result is returned (`lm_no_step_violated`). -/
theorem lm_never_worse_partial (j : Job σ K n) (f : (Fin n → K) → K) (hev : Honest j.ev f) (hclip : ∀ x, f (j.clip x) = f x)
    (maxiter : ℕ) (s : σ) (x : Fin n → K) (r : Result K n) (h : (minimize j maxiter s x).2 = .ok r) :
    Sound j f x maxiter r ∧ f r.params ≤ f x := by
  simp only [minimize] at h
  have hv := hev.value s x
  rcases hx : j.ev.value s x with ⟨s', v⟩
  rw [hx] at h hv
  cases v with
  | error e => cases h
  | ok v =>
    have := hv v rfl
    subst this
    have hs := iterate_sound j f hev hclip x maxiter s' _ [f x] maxiter rfl (List.pairwise_singleton _ _) rfl rfl
      (by simp; omega) (fun e he => by simp at he) r h
    refine ⟨hs, ?_⟩
    obtain ⟨vs, -, h2, h3, h4, -⟩ := hs.values
    cases vs with
    | nil => simp at h3
    | cons a vs =>
      have ha : a = f r.params := by simpa using h3
      rw [← ha]
      rcases List.mem_cons.1 (List.mem_of_getLast? h4) with hm | hm
      · exact hm.ge
      · exact (List.pairwise_cons.1 h2).1 _ hm

/-- C77. Without allowed iterations there is no result. -/
theorem lm_zero_iterations (j : Job σ K n) (s : σ) (x : Fin n → K) (r : Result K n) : (minimize j 0 s x).2 ≠ .ok r := by
  intro h
  simp only [minimize] at h
  rcases hx : j.ev.value s x with ⟨s', v⟩
  rw [hx] at h
  cases v <;> simp [iterate] at h

/-- The evaluator of the minimisers is honest for every loss that is a number with a number-valued gradient. -/
theorem minEv_honest (c : Min.Cfg K) (f : (Fin n → K) → K) (g : (Fin n → K) → List K)
    (hs : (Fin n → K) → Min.Out (List (List K)) Unit) :
    Honest (minEv c (fun x => .ok (f x)) (fun x => .ok (f x, g x)) hs) f := by
  constructor
  · intro s x v h
    simp only [minEv, Min.request] at h
    rcases hc : Min.counting c (.value (List.ofFn x) (.ok (f x))) s with ⟨s', e⟩
    rw [hc] at h
    cases e with
    | some e => simp at h
    | none => simpa [Min.body, Min.valueBody] using h.symm
  · intro s x r h
    simp only [minEv, Min.request] at h
    rcases hc : Min.counting c (.valueGradient (List.ofFn x) (.ok (f x, g x))) s with ⟨s', e⟩
    rw [hc] at h
    cases e with
    | some e => simp at h
    | none =>
      simp only [Min.body, Min.valueGradientBody, Except.ok.injEq] at h
      subst h
      rfl

/-! ### The damped Hessian -/

theorem damped_eq (H : Matrix (Fin n) (Fin n) K) (L : K) (hL : 0 < L) :
    damped H L = (1 / (1 + L)) • H + Matrix.diagonal (fun i => L / (1 + L) * H i i + L * (1 + H i i)) := by
  have h1 : (1 + L) ≠ 0 := by positivity
  ext i j
  by_cases hij : i = j
  · subst hij
    simp only [damped, if_true, add_apply, smul_apply, diagonal_apply_eq, smul_eq_mul]
    field_simp
    ring
  · simp only [damped, if_neg hij, add_apply, smul_apply, diagonal_apply_ne _ hij, smul_eq_mul]
    field_simp
    ring

/-- C77. Where the Hessian is positive semidefinite, the damped Hessian is positive definite for every positive damping;
so the equation for the step has at most one solution, the step goes downhill, and the improvement with which the actual
improvement is compared is positive. -/
theorem lm_step_descends (H : Matrix (Fin n) (Fin n) K) (hH : ∀ v, 0 ≤ v ⬝ᵥ (H *ᵥ v)) (L : K) (hL : 0 < L) :
    (∀ v, v ≠ 0 → 0 < v ⬝ᵥ (damped H L *ᵥ v)) ∧
    ∀ g h, damped H L *ᵥ h = -g → g ≠ 0 →
      h ⬝ᵥ g < 0 ∧ expectedImprovement (damped H L) g h = -(h ⬝ᵥ g) ∧ 0 < expectedImprovement (damped H L) g h ∧
      ∀ h', damped H L *ᵥ h' = -g → h' = h := by
  have hd : ∀ i, 0 ≤ H i i := by
    intro i
    have := hH (Pi.single i 1)
    simpa using this
  have h1 : 0 < 1 + L := by positivity
  have hpos : ∀ v : Fin n → K, v ≠ 0 → 0 < v ⬝ᵥ (damped H L *ᵥ v) := by
    intro v hv
    rw [damped_eq H L hL, add_mulVec, dotProduct_add, smul_mulVec, dotProduct_smul, smul_eq_mul]
    have e1 : 0 ≤ 1 / (1 + L) * (v ⬝ᵥ (H *ᵥ v)) := mul_nonneg (by positivity) (hH v)
    have e2 : 0 < v ⬝ᵥ (Matrix.diagonal (fun i => L / (1 + L) * H i i + L * (1 + H i i)) *ᵥ v) := by
      simp only [dotProduct, mulVec_diagonal]
      obtain ⟨i, hi⟩ := Function.ne_iff.1 hv
      have hi : v i ≠ 0 := hi
      have hdi : ∀ i, 0 < L / (1 + L) * H i i + L * (1 + H i i) := by
        intro i
        have := hd i
        have a : 0 ≤ L / (1 + L) * H i i := mul_nonneg (by positivity) this
        have b : 0 < L * (1 + H i i) := by positivity
        linarith
      refine Finset.sum_pos' (fun i _ => ?_) ⟨i, Finset.mem_univ i, ?_⟩
      · have e : v i * ((L / (1 + L) * H i i + L * (1 + H i i)) * v i) = (L / (1 + L) * H i i + L * (1 + H i i)) * (v i * v i) := by
          ring
        rw [e]
        exact mul_nonneg (hdi i).le (mul_self_nonneg _)
      · have e : v i * ((L / (1 + L) * H i i + L * (1 + H i i)) * v i) = (L / (1 + L) * H i i + L * (1 + H i i)) * (v i * v i) := by
          ring
        rw [e]
        exact mul_pos (hdi i) (mul_self_pos.2 hi)
    linarith
  refine ⟨hpos, fun g h he hg => ?_⟩
  have hh : h ≠ 0 := by
    rintro rfl
    rw [mulVec_zero] at he
    exact hg (neg_eq_zero.1 he.symm)
  have h2 := hpos h hh
  have h3 : h ⬝ᵥ (damped H L *ᵥ h) = -(h ⬝ᵥ g) := by rw [he, dotProduct_neg]
  have h4 : expectedImprovement (damped H L) g h = -(h ⬝ᵥ g) := by
    unfold expectedImprovement
    rw [h3]
    ring
  refine ⟨by linarith, h4, by linarith, ?_⟩
  intro h' he'
  by_contra hne
  have hz : damped H L *ᵥ (h' - h) = 0 := by rw [mulVec_sub, he, he', sub_self]
  have := hpos (h' - h) (sub_ne_zero.2 hne)
  rw [hz, dotProduct_zero] at this
  exact lt_irrefl _ this

/-! ### Concrete minimisations -/

/-- The exact solution of two linear equations (Cramer's rule). -/
def solve2 (A : Matrix (Fin 2) (Fin 2) ℚ) (b : Fin 2 → ℚ) : Except Err (Fin 2 → ℚ) :=
  let d := A 0 0 * A 1 1 - A 0 1 * A 1 0
  if d = 0 then .error .invalidArgument
  else .ok ![(b 0 * A 1 1 - A 0 1 * b 1) / d, (A 0 0 * b 1 - b 0 * A 1 0) / d]

theorem solve2_correct (A : Matrix (Fin 2) (Fin 2) ℚ) (b h : Fin 2 → ℚ) (hs : solve2 A b = .ok h) : A *ᵥ h = b := by
  simp only [solve2] at hs
  by_cases hd : A 0 0 * A 1 1 - A 0 1 * A 1 0 = 0
  · rw [if_pos hd] at hs; cases hs
  · rw [if_neg hd] at hs
    simp only [Except.ok.injEq] at hs
    subst hs
    funext i
    fin_cases i
    · simp only [mulVec, dotProduct, Fin.sum_univ_two, Fin.zero_eta, Fin.isValue, cons_val_zero, cons_val_one, mul_div_assoc',
        ← add_div]
      rw [div_eq_iff hd]
      ring
    · simp only [mulVec, dotProduct, Fin.sum_univ_two, Fin.mk_one, Fin.isValue, cons_val_zero, cons_val_one, mul_div_assoc',
        ← add_div]
      rw [div_eq_iff hd]
      ring

/-- A convex loss `c x⁴ - x + (y - 5)²`, its gradient and its Hessian. -/
def quartic (c : ℚ) (x : Fin 2 → ℚ) : ℚ := c * x 0 ^ 4 - x 0 + (x 1 - 5) ^ 2
def quarticGrad (c : ℚ) (x : Fin 2 → ℚ) : List ℚ := [4 * c * x 0 ^ 3 - 1, 2 * (x 1 - 5)]
def quarticHess (c : ℚ) (x : Fin 2 → ℚ) : List (List ℚ) := [[12 * c * x 0 ^ 2, 0], [0, 2]]

/-- Levenberg-Marquardt with its default settings and the default tolerance for a likelihood (`errordef` one half),
at most 100 evaluations. -/
def quarticJob (c : ℚ) : Job (Min.St ℚ) ℚ 2 :=
  { cfg := { rhoMin := 1 / 10, rhoMax := 2, solve := solve2 }
    ev := minEv ⟨some 100, false, 100, 30⟩ (fun x => .ok (quartic c x)) (fun x => .ok (quartic c x, quarticGrad c x))
      (fun x => .ok (quarticHess c x))
    clip := id
    crit := edm solve2
    tol := 1 / 1000 * (1 / 2) }

/-- The hypotheses of `lm_never_worse_partial` are met by a minimisation that takes five steps to a valid result. -/
example : Honest (quarticJob 1).ev (quartic 1) ∧ (∀ x, quartic 1 ((quarticJob 1).clip x) = quartic 1 x) ∧
    ((minimize (quarticJob 1) 6 (Min.start []) ![1, 4]).2.map fun r => (r.valid, r.history.length)) = .ok (true, 6) := by
  refine ⟨minEv_honest _ _ _ _, fun _ => rfl, ?_⟩
  decide +kernel

/-- The hypotheses of `lm_step_descends` are met by a singular Hessian. -/
example : (∀ v : Fin 2 → ℚ, 0 ≤ v ⬝ᵥ ((!![2, 0; 0, 0] : Matrix (Fin 2) (Fin 2) ℚ) *ᵥ v)) ∧
    damped (!![2, 0; 0, 0] : Matrix (Fin 2) (Fin 2) ℚ) 1 *ᵥ ![-1, 4] = -![5, -4] := by
  constructor
  · intro v
    simp [mulVec, dotProduct, Fin.sum_univ_two]
    nlinarith [mul_self_nonneg (v 0)]
  · funext i
    fin_cases i <;> simp [damped, mulVec, dotProduct, Fin.sum_univ_two] <;> norm_num

/-- C77, the missing part: with a steep loss no step is found in the first iteration, and an assertion fails. -/
theorem lm_no_step_violated :
    ((minimize (quarticJob (10 ^ 30)) 100 (Min.start []) ![0, 0]).2.map fun r => r.valid) = .error .assertionError := by
  decide +kernel

/-! A loss in one parameter that is NaN in an interval. -/

def solve1 (A : Matrix (Fin 1) (Fin 1) ℚ) (b : Fin 1 → ℚ) : Except Err (Fin 1 → ℚ) :=
  if A 0 0 = 0 then .error .invalidArgument else .ok fun _ => b 0 / A 0 0

/-- The loss falls slowly, is NaN between 1/2000 and 1/200, and about -100 above. -/
def gapLoss (x : Fin 1 → ℚ) : Option ℚ :=
  if x 0 < 1 / 2000 then some (-(x 0) / 100) else if x 0 < 1 / 200 then none else some (-100 - 1 / 100000)

def gapJob : Job (Min.St ℚ) ℚ 1 :=
  { cfg := { rhoMin := 1 / 10, rhoMax := 2, solve := solve1 }
    ev := minEv ⟨some 100, false, 100, 30⟩
      (fun x => match gapLoss x with | some v => .ok v | none => .nan ())
      (fun x => match gapLoss x with | some v => .ok (v, [-1 / 100]) | none => .nan none)
      (fun _ => .ok [[0]])
    clip := id
    crit := edm solve1
    tol := 1 / 1000 * (1 / 2) }

/-- C77, the missing part: a loss that is NaN somewhere. The value made up for a NaN (the last value plus a penalty) is
accepted as an improvement: the result is valid, at a point where the loss is NaN. -/
theorem lm_accepts_nan_violated :
    ((minimize gapJob 100 (Min.start []) ![0]).2.map fun r => (r.valid, r.fmin, gapLoss r.params)) =
      .ok (true, some (-1 / 100000), none) := by
  decide +kernel

/-! ## C78: a valid minimum is close to a minimum -/

theorem judge_hess (c : Cfg K n) (init : Option K) (e : K) (h : Fin n → K) (chi2 : K) (t : Tries K n) :
    (judge c init e h chi2 t).1.hess = t.hess := by
  have h1 : (if nanLe (some chi2) (valueOf init t.scary) then { t with scary := some (h, chi2, t.L) } else t).hess = t.hess := by
    split <;> rfl
  unfold judge
  simp only
  generalize (if nanLe (some chi2) (valueOf init t.scary) then { t with scary := some (h, chi2, t.L) } else t) = u at h1 ⊢
  rw [← h1]
  split
  · split <;> rfl
  · split
    · split <;> rfl
    · split <;> rfl

theorem oneTry_hess (c : Cfg K n) (ev : Ev σ K n) (x g : Fin n → K) (init : Option K)
    (H : Matrix (Fin n) (Fin n) K) (s : σ) (t : Tries K n) (r : Tries K n × Bool)
    (h : (oneTry c ev x init g H s t).2 = .ok r) : r.1.hess = damped H t.L := by
  simp only [oneTry] at h
  cases hs : c.solve (damped H t.L) (-g) with
  | error e => rw [hs] at h; cases h
  | ok st =>
    rw [hs] at h
    simp only at h
    rcases hev' : ev.value s (x + st) with ⟨s', v⟩
    rw [hev'] at h
    cases v with
    | error e => cases h
    | ok v =>
      cases v with
      | none =>
        simp only [Except.ok.injEq] at h
        subst h
        unfold notFinite
        split <;> rfl
      | some v =>
        simp only [Except.ok.injEq] at h
        subst h
        rw [judge_hess]

theorem tries_hess (c : Cfg K n) (ev : Ev σ K n) (x g : Fin n → K) (init : Option K) (H : Matrix (Fin n) (Fin n) K) (k : ℕ)
    (s : σ) (t : Tries K n) (r : Tries K n) (hk : 0 < k ∨ ∃ L, t.hess = damped H L)
    (h : (tries c ev x init g H k s t).2 = .ok r) : ∃ L, r.hess = damped H L := by
  induction k generalizing s t with
  | zero =>
    simp only [tries, Except.ok.injEq] at h
    subst h
    rcases hk with hk | hk
    · omega
    · exact hk
  | succ k ih =>
    simp only [tries] at h
    have h1 := oneTry_hess c ev x g init H s t
    rcases ho : oneTry c ev x init g H s t with ⟨s', o⟩
    rw [ho] at h h1
    cases o with
    | error e => cases h
    | ok o =>
      obtain ⟨t', b⟩ := o
      have h2 := h1 (t', b) rfl
      cases b with
      | true => simp only [Except.ok.injEq] at h; subst h; exact ⟨_, h2⟩
      | false => exact ih s' t' (Or.inr ⟨_, h2⟩) h

/-- Gradient and Hessian are those the evaluator gave at `y`. -/
def DerivativesAt (ev : Ev σ K n) (y g : Fin n → K) (H : Matrix (Fin n) (Fin n) K) : Prop :=
  ∃ s0 s1 s2 init, ev.valueGradient s0 y = (s1, .ok (init, g)) ∧ ev.hessian s1 y = (s2, .ok H)

theorem step_derivatives (c : Cfg K n) (ev : Ev σ K n) (s : σ) (x : Fin n → K) (L : K) (st : Step K n)
    (h : (mode0Step c ev s x L).2 = .ok (some st)) :
    ∃ H L', DerivativesAt ev x st.grad H ∧ st.hess = damped H L' := by
  simp only [mode0Step] at h
  rcases hg : ev.valueGradient s x with ⟨s1, r⟩
  rw [hg] at h
  cases r with
  | error e => cases h
  | ok r =>
    obtain ⟨init, g⟩ := r
    simp only at h
    rcases hh : ev.hessian s1 x with ⟨s2, r⟩
    rw [hh] at h
    cases r with
    | error e => cases h
    | ok H =>
      simp only at h
      have h2 := tries_hess c ev x g init H 10 s2 { L := L, best := none, scary := none, dir := .none, hess := H }
      rcases ht : tries c ev x init g H 10 s2 { L := L, best := none, scary := none, dir := .none, hess := H } with ⟨s3, r⟩
      rw [ht] at h h2
      cases r with
      | error e => cases h
      | ok t =>
        obtain ⟨L', h3⟩ := h2 t (Or.inl (by omega)) rfl
        have hd : DerivativesAt ev x g H := ⟨s, s1, s2, init, hg, hh⟩
        cases hb : t.best with
        | some b =>
          simp only [hb, Except.ok.injEq, Option.some.injEq] at h
          subst h
          exact ⟨H, L', hd, h3⟩
        | none =>
          cases hs : t.scary with
          | some b =>
            simp only [hb, hs, Except.ok.injEq, Option.some.injEq] at h
            subst h
            exact ⟨H, L', hd, h3⟩
          | none => simp only [hb, hs, Except.ok.injEq] at h; cases h

/-- `e` is the criterion at `x`, computed with the derivatives at a point `y` one step before. -/
def FromBefore (j : Job σ K n) (x : Fin n → K) (e : K) : Prop :=
  ∃ y h g H L, x = y + h ∧ DerivativesAt j.ev y g H ∧ j.crit x g (damped H L) = .ok e

theorem iterate_from_before (j : Job σ K n) (k : ℕ) (s : σ) (w : Walk K n)
    (hw : ∀ e, w.last = some e → FromBefore j w.x e) (r : Result K n) (h : (iterate j k s w).2 = .ok r) :
    ∃ x e, r.params = j.clip x ∧ r.edm = some e ∧ FromBefore j x e := by
  induction k generalizing s w with
  | zero => simp only [iterate] at h; cases h
  | succ k ih =>
    simp only [iterate] at h
    have h1 := fun st => step_derivatives j.cfg j.ev s w.x w.L st
    rcases hm : mode0Step j.cfg j.ev s w.x w.L with ⟨s', o⟩
    rw [hm] at h h1
    cases o with
    | error e => cases h
    | ok o =>
      cases o with
      | none =>
        simp only [finish] at h
        cases hl : w.last with
        | none => rw [hl] at h; cases h
        | some e =>
          rw [hl] at h
          simp only [Except.ok.injEq] at h
          subst h
          exact ⟨w.x, e, rfl, rfl, hw e hl⟩
      | some st =>
        obtain ⟨H, L', h2, h3⟩ := h1 st rfl
        simp only at h
        cases hc : j.crit (w.x + st.h) st.grad st.hess with
        | error e => rw [hc] at h; cases h
        | ok e =>
          rw [hc] at h
          simp only at h
          have hf : FromBefore j (w.x + st.h) e := ⟨w.x, st.h, st.grad, H, L', rfl, h2, by rw [← h3]; exact hc⟩
          by_cases ht : e < j.tol
          · rw [if_pos ht] at h
            simp only [finish, Except.ok.injEq] at h
            subst h
            exact ⟨_, e, rfl, rfl, hf⟩
          · rw [if_neg ht] at h
            refine ih s' _ ?_ h
            intro e' he'
            simp only [Option.some.injEq] at he'
            rw [← he']
            exact hf

/-- C78. What "valid" means for Levenberg-Marquardt: the reported criterion is computed from the gradient at a point `y` one
step before the reported one and the Hessian at `y` damped with some `L`, not from the derivatives at the reported point. Missing from the
full claim: the cases of `lm_valid_far_from_minimum_violated`. -/
theorem lm_edm_is_of_previous_point_partial (j : Job σ K n) (maxiter : ℕ) (s : σ) (x : Fin n → K) (r : Result K n)
    (h : (minimize j maxiter s x).2 = .ok r) :
    ∃ x' e, r.params = j.clip x' ∧ r.edm = some e ∧ FromBefore j x' e := by
  simp only [minimize] at h
  rcases hx : j.ev.value s x with ⟨s', v⟩
  rw [hx] at h
  cases v with
  | error e => cases h
  | ok v => exact iterate_from_before j maxiter s' _ (fun e he => by simp at he) r h

/-- C78 refuted: for a convex loss with a single minimum, exact derivatives and the default settings, the result of
Levenberg-Marquardt is valid although its loss is more than 24 above the loss at another point, and the estimated
distance to the minimum there, computed with gradient and Hessian at the reported parameters, is more than 20 (the tolerance is
1/2000). -/
theorem lm_valid_far_from_minimum_violated :
    ((minimize (quarticJob (10 ^ 15)) 100 (Min.start []) ![0, 0]).2.map fun r =>
      (r.valid, decide (quartic (10 ^ 15) ![0, 5] + 24 < quartic (10 ^ 15) r.params),
        (edm solve2 r.params (fun i => (quarticGrad (10 ^ 15) r.params).getD i 0)
          (fun i j => ((quarticHess (10 ^ 15) r.params).getD i []).getD j 0)).map fun e => decide (20 < e))) =
      .ok (true, true, .ok true) := by
  decide +kernel

end Zfit.Lm
