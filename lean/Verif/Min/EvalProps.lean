import Verif.Min.EvalModel
import Verif.Common.Except
import Mathlib.Algebra.Order.Field.Rat
import Mathlib.Tactic.Linarith
import Mathlib.Tactic.Positivity

/-!
# Properties of the evaluation of a loss by a minimiser

* C48: `budget_respected_partial`, `budget_used_up`, `later_requests_rejected`; `ignore_exception_violated`
* C49: `nan_pushback_partial`, `nan_pushback_increasing`, `valid_resets`, `nan_at_start`; `nan_verbose_violated`
-/

namespace Zfit.Min

open Zfit

variable {K : Type} [Field K]

/-! ## C48 -/

/-- The saved flags of nested blocks: the outermost saved "not ignoring". -/
def Nested : List Bool → Prop
  | [] => True
  | o :: os => o = !os.isEmpty ∧ Nested os

/-- The invariant: the flag is set exactly inside of `ignore_maxiter` blocks; as long as the budget has not run out, the counters are the
numbers of evaluations; those never exceed the budget. -/
structure Inv (m : ℕ) (s : St K) : Prop where
  flag : s.ignoring = !s.olds.isEmpty
  nested : Nested s.olds
  eq : s.niter ≤ m → s.evalF = s.nfunc ∧ s.evalG = s.ngrad ∧ s.evalH = s.nhess
  boundF : s.evalF ≤ m
  boundG : s.evalG ≤ m
  boundH : s.evalH ≤ m

theorem inv_start (m : ℕ) (x : List K) : Inv m (start x) :=
  ⟨rfl, trivial, fun _ => ⟨rfl, rfl, rfl⟩, Nat.zero_le _, Nat.zero_le _, Nat.zero_le _⟩

/-- Nothing the budget depends on differs. -/
structure SameCounts (s t : St K) : Prop where
  nfunc : t.nfunc = s.nfunc
  ngrad : t.ngrad = s.ngrad
  nhess : t.nhess = s.nhess
  ignoring : t.ignoring = s.ignoring
  olds : t.olds = s.olds

/-- Evaluations after one request compared to before. -/
structure Evals (s t : St K) (f g h : ℕ) : Prop where
  evalF : t.evalF = s.evalF + f
  evalG : t.evalG = s.evalG + g
  evalH : t.evalH = s.evalH + h

def inOut (s : St K) : ℕ := if s.olds = [] then 1 else 0

theorem value_counts (c : Cfg K) (s : St K) (x : List K) (o : Out K Unit) :
    SameCounts s (valueBody c s x o).1 ∧ Evals s (valueBody c s x o).1 (inOut s) 0 0 := by
  have key : SameCounts s { s with params := x }.countF ∧ Evals s { s with params := x }.countF (inOut s) 0 0 := by
    unfold St.countF inOut; split <;> exact ⟨⟨rfl, rfl, rfl, rfl, rfl⟩, ⟨rfl, rfl, rfl⟩⟩
  obtain ⟨k1, k2⟩ := key
  unfold valueBody
  cases o with
  | ok v => exact ⟨⟨k1.1, k1.2, k1.3, k1.4, k1.5⟩, ⟨k2.1, k2.2, k2.3⟩⟩
  | nan b => exact ⟨⟨k1.1, k1.2, k1.3, k1.4, k1.5⟩, ⟨k2.1, k2.2, k2.3⟩⟩
  | invalid => dsimp only; split <;> exact ⟨⟨k1.1, k1.2, k1.3, k1.4, k1.5⟩, ⟨k2.1, k2.2, k2.3⟩⟩
  | raises e => exact ⟨k1, k2⟩

theorem gradient_counts (c : Cfg K) (s : St K) (x : List K) (o : Out (List K) Unit) :
    SameCounts s (gradientBody c s x o).1 ∧ Evals s (gradientBody c s x o).1 0 (inOut s) 0 := by
  have key : SameCounts s { s with params := x }.countG ∧ Evals s { s with params := x }.countG 0 (inOut s) 0 := by
    unfold St.countG inOut; split <;> exact ⟨⟨rfl, rfl, rfl, rfl, rfl⟩, ⟨rfl, rfl, rfl⟩⟩
  obtain ⟨k1, k2⟩ := key
  unfold gradientBody
  cases o with
  | raises e => exact ⟨k1, k2⟩
  | _ => exact ⟨⟨k1.1, k1.2, k1.3, k1.4, k1.5⟩, ⟨k2.1, k2.2, k2.3⟩⟩

theorem hessian_counts (c : Cfg K) (s : St K) (x : List K) (o : Out (List (List K)) Unit) :
    SameCounts s (hessianBody c s x o).1 ∧ Evals s (hessianBody c s x o).1 0 0 (inOut s) := by
  have key : SameCounts s { s with params := x }.countH ∧ Evals s { s with params := x }.countH 0 0 (inOut s) := by
    unfold St.countH inOut; split <;> exact ⟨⟨rfl, rfl, rfl, rfl, rfl⟩, ⟨rfl, rfl, rfl⟩⟩
  obtain ⟨k1, k2⟩ := key
  unfold hessianBody
  cases o with
  | raises e => exact ⟨k1, k2⟩
  | _ => exact ⟨⟨k1.1, k1.2, k1.3, k1.4, k1.5⟩, ⟨k2.1, k2.2, k2.3⟩⟩

theorem valueGradient_counts (c : Cfg K) (s : St K) (x : List K) (o : Out (K × List K) (Option K)) :
    SameCounts s (valueGradientBody c s x o).1 ∧ Evals s (valueGradientBody c s x o).1 (inOut s) (inOut s) 0 := by
  have key : SameCounts s { s with params := x }.countF.countG ∧ Evals s { s with params := x }.countF.countG (inOut s) (inOut s) 0 := by
    unfold St.countF St.countG inOut
    by_cases h : s.olds = [] <;> simp only [h, if_true, if_false] <;> exact ⟨⟨rfl, rfl, rfl, rfl, by simp [h]⟩, ⟨rfl, rfl, rfl⟩⟩
  obtain ⟨k1, k2⟩ := key
  unfold valueGradientBody
  cases o with
  | ok v => exact ⟨⟨k1.1, k1.2, k1.3, k1.4, k1.5⟩, ⟨k2.1, k2.2, k2.3⟩⟩
  | nan b => exact ⟨⟨k1.1, k1.2, k1.3, k1.4, k1.5⟩, ⟨k2.1, k2.2, k2.3⟩⟩
  | invalid => dsimp only; split <;> exact ⟨⟨k1.1, k1.2, k1.3, k1.4, k1.5⟩, ⟨k2.1, k2.2, k2.3⟩⟩
  | raises e => exact ⟨k1, k2⟩

/-- How much each counter is asked to grow. -/
def Req.kind : Req K → ℕ × ℕ × ℕ
  | .value _ _ => (1, 0, 0)
  | .gradient _ _ => (0, 1, 0)
  | .valueGradient _ _ => (1, 1, 0)
  | .hessian _ _ => (0, 0, 1)
  | _ => (0, 0, 0)

/-- Is it a request for an evaluation (and not one of the `ignore` ones)? -/
def Req.evaluates : Req K → Bool
  | .ignoreEnter => false
  | .ignoreExit _ => false
  | _ => true

theorem body_counts (c : Cfg K) (s : St K) (r : Req K) (hr : r.evaluates = true) :
    SameCounts s (body c r s).1
      ∧ Evals s (body c r s).1 (r.kind.1 * inOut s) (r.kind.2.1 * inOut s) (r.kind.2.2 * inOut s) := by
  cases r with
  | value x o => have := value_counts c s x o; simpa [body, Req.kind] using this
  | gradient x o => have := gradient_counts c s x o; simpa [body, Req.kind] using this
  | valueGradient x o => have := valueGradient_counts c s x o; simpa [body, Req.kind] using this
  | hessian x o => have := hessian_counts c s x o; simpa [body, Req.kind] using this
  | ignoreEnter => cases hr
  | ignoreExit e => cases hr

/-- The counters after the counting when it is rejected, and when not. -/
theorem counting_spec (c : Cfg K) (m : ℕ) (hm : c.maxiter = some m) (s : St K) (r : Req K) (hr : r.evaluates = true) :
    (s.ignoring = true ∧ counting c r s = (s, none))
    ∨ (s.ignoring = false ∧ (counting c r s).2 = some .maximumIterationReached ∧ m < (counting c r s).1.niter
        ∧ (counting c r s).1.ignoring = false ∧ (counting c r s).1.olds = s.olds ∧ (counting c r s).1.params = s.params
        ∧ Evals s (counting c r s).1 0 0 0)
    ∨ (s.ignoring = false ∧ (counting c r s).2 = none ∧ (counting c r s).1.niter ≤ m
        ∧ (counting c r s).1.ignoring = false ∧ (counting c r s).1.olds = s.olds ∧ Evals s (counting c r s).1 0 0 0
        ∧ (counting c r s).1.nfunc = s.nfunc + r.kind.1 ∧ (counting c r s).1.ngrad = s.ngrad + r.kind.2.1
        ∧ (counting c r s).1.nhess = s.nhess + r.kind.2.2) := by
  have htick : ∀ (inc : St K → St K) (s : St K), (inc s).ignoring = s.ignoring →
      tick c inc s = if s.ignoring then (s, none) else if m < (inc s).niter then (inc s, some .maximumIterationReached) else (inc s, none) := by
    intro inc s hi
    unfold tick exceeded
    rw [hm]
    cases hs : s.ignoring <;> simp [hi, hs]
  rcases hi : s.ignoring with _ | _
  · right
    cases r with
    | value x o =>
      simp only [counting, htick incF s rfl, hi, Bool.false_eq_true, if_false]
      by_cases h : m < (incF s).niter
      · left; rw [if_pos h]; exact ⟨trivial, rfl, h, hi, rfl, rfl, rfl, rfl, rfl⟩
      · right; rw [if_neg h]; exact ⟨trivial, rfl, Nat.not_lt.1 h, hi, rfl, ⟨rfl, rfl, rfl⟩, rfl, rfl, rfl⟩
    | gradient x o =>
      simp only [counting, htick incG s rfl, hi, Bool.false_eq_true, if_false]
      by_cases h : m < (incG s).niter
      · left; rw [if_pos h]; exact ⟨trivial, rfl, h, hi, rfl, rfl, rfl, rfl, rfl⟩
      · right; rw [if_neg h]; exact ⟨trivial, rfl, Nat.not_lt.1 h, hi, rfl, ⟨rfl, rfl, rfl⟩, rfl, rfl, rfl⟩
    | hessian x o =>
      simp only [counting, htick incH s rfl, hi, Bool.false_eq_true, if_false]
      by_cases h : m < (incH s).niter
      · left; rw [if_pos h]; exact ⟨trivial, rfl, h, hi, rfl, rfl, rfl, rfl, rfl⟩
      · right; rw [if_neg h]; exact ⟨trivial, rfl, Nat.not_lt.1 h, hi, rfl, ⟨rfl, rfl, rfl⟩, rfl, rfl, rfl⟩
    | valueGradient x o =>
      simp only [counting, htick incF s rfl, hi, Bool.false_eq_true, if_false]
      by_cases h : m < (incF s).niter
      · left; rw [if_pos h]; exact ⟨trivial, rfl, h, hi, rfl, rfl, rfl, rfl, rfl⟩
      · rw [if_neg h]
        have hi' : (incF s).ignoring = false := hi
        simp only [htick incG (incF s) rfl, hi', Bool.false_eq_true, if_false]
        by_cases h2 : m < (incG (incF s)).niter
        · left; rw [if_pos h2]; exact ⟨trivial, rfl, h2, hi, rfl, rfl, rfl, rfl, rfl⟩
        · right; rw [if_neg h2]; exact ⟨trivial, rfl, Nat.not_lt.1 h2, hi, rfl, ⟨rfl, rfl, rfl⟩, rfl, rfl, rfl⟩
    | ignoreEnter => cases hr
    | ignoreExit e => cases hr
  · left
    refine ⟨rfl, ?_⟩
    cases r with
    | value x o => simp only [counting, htick incF s rfl, hi, if_true]
    | gradient x o => simp only [counting, htick incG s rfl, hi, if_true]
    | hessian x o => simp only [counting, htick incH s rfl, hi, if_true]
    | valueGradient x o => simp only [counting, htick incF s rfl, htick incG s rfl, hi, if_true]
    | ignoreEnter => cases hr
    | ignoreExit e => cases hr

theorem niter_le {s : St K} {m : ℕ} : s.niter ≤ m ↔ s.nfunc ≤ m ∧ s.ngrad ≤ m ∧ s.nhess ≤ m := by
  unfold St.niter; simp [Nat.max_le]

/-- A request keeps the invariant, unless it leaves an `ignore_maxiter` block by an exception. -/
theorem inv_request (c : Cfg K) (m : ℕ) (hm : c.maxiter = some m) (s : St K) (h : Inv m s) (r : Req K) (hr : r ≠ .ignoreExit true) :
    Inv m (request c s r).1 := by
  by_cases hev : r.evaluates = true
  · rcases counting_spec c m hm s r hev with ⟨hi, hc⟩ | ⟨hi, h2, h3, h4, h5, h6, h7⟩ | ⟨hi, h2, h3, h4, h5, h6, h7, h8, h9⟩
    · have hreq : request c s r = body c r s := by unfold request; rw [hc]
      obtain ⟨b1, b2⟩ := body_counts c s r hev
      rw [hreq]
      have hin : inOut s = 0 := by
        unfold inOut; split
        · rename_i ho; have := h.flag; rw [hi, ho] at this; cases this
        · rfl
      simp only [hin, Nat.mul_zero] at b2
      refine ⟨by rw [b1.ignoring, b1.olds]; exact h.flag, by rw [b1.olds]; exact h.nested, fun hn => ?_, ?_, ?_, ?_⟩
      · rw [b1.nfunc, b1.ngrad, b1.nhess, b2.evalF, b2.evalG, b2.evalH]
        exact h.eq (by rw [niter_le] at hn ⊢; rwa [b1.nfunc, b1.ngrad, b1.nhess] at hn)
      · rw [b2.evalF]; exact h.boundF
      · rw [b2.evalG]; exact h.boundG
      · rw [b2.evalH]; exact h.boundH
    · have hreq : (request c s r).1 = (counting c r s).1 := by
        unfold request
        rw [show counting c r s = ((counting c r s).1, some .maximumIterationReached) from Prod.ext rfl h2]
      rw [hreq]
      refine ⟨by rw [h4, h5, ← h.flag, hi], by rw [h5]; exact h.nested, fun hn => absurd hn (Nat.not_le.2 h3), ?_, ?_, ?_⟩
      · rw [h7.evalF]; exact h.boundF
      · rw [h7.evalG]; exact h.boundG
      · rw [h7.evalH]; exact h.boundH
    · obtain ⟨s1, hs1⟩ : ∃ s1, s1 = (counting c r s).1 := ⟨_, rfl⟩
      have hreq : request c s r = body c r s1 := by
        unfold request
        rw [show counting c r s = (s1, none) from Prod.ext hs1.symm h2]
      rw [← hs1] at h3 h4 h5 h6 h7 h8 h9
      obtain ⟨b1, b2⟩ := body_counts c s1 r hev
      rw [hreq]
      have ho : s1.olds = [] := by
        have := h.flag; rw [hi] at this; rw [h5]
        cases hol : s.olds with
        | nil => rfl
        | cons a l => rw [hol] at this; cases this
      have hin : inOut s1 = 1 := by unfold inOut; rw [if_pos ho]
      simp only [hin, Nat.mul_one] at b2
      have hle := niter_le.1 h3
      have heq := h.eq (niter_le.2 (by omega))
      obtain ⟨e1, e2, e3⟩ := heq
      have f1 := b2.evalF; have f2 := b2.evalG; have f3 := b2.evalH
      rw [h6.evalF] at f1; rw [h6.evalG] at f2; rw [h6.evalH] at f3
      refine ⟨by rw [b1.ignoring, b1.olds, h4, ho]; rfl, by rw [b1.olds, ho]; trivial, fun _ => ?_, ?_, ?_, ?_⟩
      · rw [b1.nfunc, b1.ngrad, b1.nhess]; omega
      · omega
      · omega
      · omega
  · cases r with
    | ignoreEnter =>
      refine ⟨?_, ⟨h.flag, h.nested⟩, h.eq, h.boundF, h.boundG, h.boundH⟩
      simp [request, counting, body]
    | ignoreExit exc =>
      cases exc with
      | true => exact absurd rfl hr
      | false =>
        have hreq : (request c s (.ignoreExit false)).1 = (body c (.ignoreExit false) s).1 := rfl
        rw [hreq]
        unfold body
        have hnest := h.nested
        cases hol : s.olds with
        | nil => simpa only [hol] using h
        | cons o os =>
          rw [hol] at hnest
          exact ⟨hnest.1, hnest.2, h.eq, h.boundF, h.boundG, h.boundH⟩
    | _ => exact absurd rfl hev

theorem inv_serve (c : Cfg K) (m : ℕ) (hm : c.maxiter = some m) (rs : List (Req K)) (hrs : Req.ignoreExit true ∉ rs) (s : St K)
    (h : Inv m s) : Inv m (serve c s rs).1 := by
  induction rs generalizing s with
  | nil => exact h
  | cons r rs ih =>
    exact ih (fun hr => hrs (List.mem_cons_of_mem _ hr)) _
      (inv_request c m hm s h r (fun he => hrs (he ▸ List.mem_cons_self)))

/-- Whatever the backend asks for, in any order and with any losses: the loss, its gradient and its hessian are evaluated at most `m`
times each (outside of blocks that ignore the budget, provided none of those was left by an exception). Missing from the full claim: the
cases of `ignore_exception_violated`. -/
theorem budget_respected_partial (c : Cfg K) (m : ℕ) (hm : c.maxiter = some m) (x : List K) (rs : List (Req K))
    (hrs : Req.ignoreExit true ∉ rs) :
    (serve c (start x) rs).1.evalF ≤ m ∧ (serve c (start x) rs).1.evalG ≤ m ∧ (serve c (start x) rs).1.evalH ≤ m :=
  let h := inv_serve c m hm rs hrs _ (inv_start m x)
  ⟨h.boundF, h.boundG, h.boundH⟩

/-- The request after the budget of its kind is used up raises `MaximumIterationReached`; nothing is evaluated and the parameters are not
touched. -/
theorem budget_used_up (c : Cfg K) (m : ℕ) (hm : c.maxiter = some m) (x : List K) (rs : List (Req K)) (hrs : Req.ignoreExit true ∉ rs)
    (r : Req K) (hr : r.evaluates = true) (hi : (serve c (start x) rs).1.olds = [])
    (hu : let s := (serve c (start x) rs).1
      (r.kind.1 = 1 ∧ s.evalF = m) ∨ (r.kind.2.1 = 1 ∧ s.evalG = m) ∨ (r.kind.2.2 = 1 ∧ s.evalH = m)) :
    let s := (serve c (start x) rs).1
    (request c s r).2 = .error .maximumIterationReached ∧ (request c s r).1.params = s.params ∧ Evals s (request c s r).1 0 0 0 := by
  intro s
  have h : Inv m s := inv_serve c m hm rs hrs _ (inv_start m x)
  have hig : s.ignoring = false := by rw [h.flag]; change (!(s.olds.isEmpty)) = false; rw [show s.olds = [] from hi]; rfl
  rcases counting_spec c m hm s r hr with ⟨hi', _⟩ | ⟨_, h2, h3, h4, h5, h6, h7⟩ | ⟨_, h2, h3, h4, h5, h6, h7, h8, h9⟩
  · rw [hig] at hi'; cases hi'
  · have hreq : request c s r = ((counting c r s).1, .error .maximumIterationReached) := by
      unfold request
      rw [show counting c r s = ((counting c r s).1, some .maximumIterationReached) from Prod.ext rfl h2]
    rw [hreq]
    exact ⟨rfl, h6, h7⟩
  · exfalso
    have hle := niter_le.1 h3
    have heq := h.eq (niter_le.2 (by omega))
    change (r.kind.1 = 1 ∧ s.evalF = m) ∨ (r.kind.2.1 = 1 ∧ s.evalG = m) ∨ (r.kind.2.2 = 1 ∧ s.evalH = m) at hu
    omega

theorem rejected_after (c : Cfg K) (m : ℕ) (hm : c.maxiter = some m) (rs : List (Req K)) (s : St K) (hi : s.ignoring = false)
    (hn : m < s.niter) (hrs : ∀ r ∈ rs, r.evaluates = true) :
    (∀ a ∈ (serve c s rs).2, a = .error .maximumIterationReached) ∧ (serve c s rs).1.params = s.params ∧ Evals s (serve c s rs).1 0 0 0 := by
  induction rs generalizing s with
  | nil => exact ⟨by simp [serve], rfl, rfl, rfl, rfl⟩
  | cons r rs ih =>
    rcases counting_spec c m hm s r (hrs r List.mem_cons_self) with ⟨hi', _⟩ | ⟨_, h2, h3, h4, h5, h6, h7⟩ | ⟨_, h2, h3, h4, h5, h6, h7, h8, h9⟩
    · rw [hi] at hi'; cases hi'
    · have hreq : request c s r = ((counting c r s).1, .error .maximumIterationReached) := by
        unfold request
        rw [show counting c r s = ((counting c r s).1, some .maximumIterationReached) from Prod.ext rfl h2]
      obtain ⟨i1, i2, i3⟩ := ih _ h4 h3 (fun r hr => hrs r (List.mem_cons_of_mem _ hr))
      unfold serve
      rw [hreq]
      refine ⟨?_, by rw [i2, h6], by rw [i3.evalF, h7.evalF], by rw [i3.evalG, h7.evalG], by rw [i3.evalH, h7.evalH]⟩
      intro a ha
      rcases List.mem_cons.1 ha with rfl | ha
      · rfl
      · exact i1 a ha
    · exfalso
      have h3' := niter_le.1 h3
      have : s.niter ≤ m := niter_le.2 (by omega)
      omega

/-- Once a request has raised `MaximumIterationReached`, every later one does too, of whatever kind, and the parameters keep the values they
have. -/
theorem later_requests_rejected (c : Cfg K) (m : ℕ) (hm : c.maxiter = some m) (s : St K) (r : Req K) (hr : r.evaluates = true)
    (he : (counting c r s).2 = some .maximumIterationReached) (rs : List (Req K)) (hrs : ∀ r ∈ rs, r.evaluates = true) :
    (request c s r).2 = .error .maximumIterationReached ∧
    (∀ a ∈ (serve c (request c s r).1 rs).2, a = .error .maximumIterationReached)
      ∧ (serve c (request c s r).1 rs).1.params = s.params ∧ Evals s (serve c (request c s r).1 rs).1 0 0 0 := by
  rcases counting_spec c m hm s r hr with ⟨_, hc⟩ | ⟨_, h2, h3, h4, h5, h6, h7⟩ | ⟨_, h2, h3, h4, h5, h6, h7, h8, h9⟩
  · rw [hc] at he; cases he
  · have hreq : request c s r = ((counting c r s).1, .error .maximumIterationReached) := by
      unfold request
      rw [show counting c r s = ((counting c r s).1, some .maximumIterationReached) from Prod.ext rfl h2]
    rw [hreq]
    obtain ⟨i1, i2, i3⟩ := rejected_after c m hm rs _ h4 h3 hrs
    exact ⟨rfl, i1, by rw [i2, h6], by rw [i3.evalF, h7.evalF], by rw [i3.evalG, h7.evalG], by rw [i3.evalH, h7.evalH]⟩
  · rw [h2] at he; cases he

/-- A budget of two, used up by a value, a value with gradient and a third value. -/
def exCfg : Cfg ℚ := ⟨some 2, false, 100, 30⟩
def exReqs : List (Req ℚ) :=
  [.value [1] (.ok 5), .ignoreEnter, .hessian [7] (.ok [[1]]), .ignoreExit false, .valueGradient [2] (.ok (3, [1])), .value [3] (.ok 9), .gradient [4] (.ok [0])]

example : (serve exCfg (start [0]) exReqs).2
    = [.ok (.value (.num 5)), .ok .done, .ok (.hessian (some [[1]])), .ok .done, .ok (.valueGradient (.num 3) (some [1])),
        .error .maximumIterationReached, .error .maximumIterationReached] := by decide +kernel

example : let s := (serve exCfg (start [0]) exReqs).1
    s.evalF = 2 ∧ s.evalG = 1 ∧ s.params = [2] := by decide +kernel

/-- If a block that ignores the budget is left by an exception, the budget is ignored for ever: here the loss is evaluated four times. -/
theorem ignore_exception_violated :
    (serve exCfg (start [0]) [.ignoreEnter, .ignoreExit true, .value [1] (.ok 1), .value [2] (.ok 1), .value [3] (.ok 1), .value [4] (.ok 1)]).1.evalF
      = 4 ∧ exCfg.maxiter = some 2 := by decide +kernel

/-! ## C49 -/

/-- The evaluation gave a NaN, found by zfit or by the backend. -/
def Req.isNan : Req K → Bool
  | .value _ (.nan _) | .value _ .invalid => true
  | .gradient _ (.nan _) | .gradient _ .invalid => true
  | .valueGradient _ (.nan _) | .valueGradient _ .invalid => true
  | .hessian _ (.nan _) | .hessian _ .invalid => true
  | _ => false

/-- The answer the `n`-th consecutive NaN gets: the last valid loss plus `n` penalties and the negative of the last valid gradient. -/
def pushed (c : Cfg K) (v : K) (g : Option (List K)) (n : ℕ) : Req K → Except Err (Ans K)
  | .value _ _ => .ok (.value (.num (v + c.penalty * n)))
  | .gradient _ _ => .ok (.gradient (g.map (·.map Neg.neg)))
  | .valueGradient _ _ => .ok (.valueGradient (.num (v + c.penalty * n)) (g.map (·.map Neg.neg)))
  | _ => .ok (.hessian none)

/-- A NaN request in detail. -/
theorem nan_body (c : Cfg K) (hp : c.doPrint = false) (s : St K) (v : K) (hv : s.lastValue = some v) (r : Req K) (hr : r.isNan = true) :
    (body c r s).1.nanCount = s.nanCount + 1 ∧ (body c r s).1.lastValue = some v ∧ (body c r s).1.lastGrad = s.lastGrad
      ∧ (body c r s).2 = if s.nanCount + 1 < c.tol then pushed c v s.lastGrad (s.nanCount + 1) r else .error .failMinimizeNaN := by
  have hmn : ∀ (t : St K) given, t.nanCount = s.nanCount + 1 → t.lastValue = some v → t.lastGrad = s.lastGrad →
      minimizeNan c t given = if s.nanCount + 1 < c.tol then .ok (.num (v + c.penalty * ((s.nanCount + 1 : ℕ) : K)), s.lastGrad.map (·.map Neg.neg))
        else .error .failMinimizeNaN := by
    intro t given h1 h2 h3
    unfold minimizeNan
    rw [h1, h2, h3]
  have hF : ∀ x : List K, ({ s with params := x }.countF).nanCount = s.nanCount ∧ ({ s with params := x }.countF).lastValue = s.lastValue
      ∧ ({ s with params := x }.countF).lastGrad = s.lastGrad := fun x => by unfold St.countF; split <;> exact ⟨rfl, rfl, rfl⟩
  have hG : ∀ x : List K, ({ s with params := x }.countG).nanCount = s.nanCount ∧ ({ s with params := x }.countG).lastValue = s.lastValue
      ∧ ({ s with params := x }.countG).lastGrad = s.lastGrad := fun x => by unfold St.countG; split <;> exact ⟨rfl, rfl, rfl⟩
  have hH : ∀ x : List K, ({ s with params := x }.countH).nanCount = s.nanCount ∧ ({ s with params := x }.countH).lastValue = s.lastValue
      ∧ ({ s with params := x }.countH).lastGrad = s.lastGrad := fun x => by unfold St.countH; split <;> exact ⟨rfl, rfl, rfl⟩
  have hFG : ∀ x : List K, ({ s with params := x }.countF.countG).nanCount = s.nanCount ∧ ({ s with params := x }.countF.countG).lastValue = s.lastValue
      ∧ ({ s with params := x }.countF.countG).lastGrad = s.lastGrad := fun x => by
    unfold St.countF St.countG; by_cases h : s.olds = [] <;> simp [h]
  cases r with
  | value x o =>
    obtain ⟨a1, a2, a3⟩ := hF x
    replace a2 := a2.trans hv
    cases o with
    | nan b =>
      refine ⟨by simp [body, valueBody, a1], by simp [body, valueBody, a2], by simp [body, valueBody, a3], ?_⟩
      simp only [body, valueBody]
      rw [hmn _ _ (by simp [a1]) (by simp [a2]) (by simp [a3])]
      split <;> rfl
    | invalid =>
      refine ⟨by simp [body, valueBody, hp, a1], by simp [body, valueBody, hp, a2], by simp [body, valueBody, hp, a3], ?_⟩
      simp only [body, valueBody, hp, Bool.false_eq_true, if_false]
      rw [hmn _ _ (by simp [a1]) (by simp [a2]) (by simp [a3])]
      split <;> rfl
    | ok a => cases hr
    | raises e => cases hr
  | gradient x o =>
    obtain ⟨a1, a2, a3⟩ := hG x
    replace a2 := a2.trans hv
    cases o with
    | nan b =>
      refine ⟨by simp [body, gradientBody, a1], by simp [body, gradientBody, a2], by simp [body, gradientBody, a3], ?_⟩
      simp only [body, gradientBody]
      rw [hmn _ _ (by simp [a1]) (by simp [a2]) (by simp [a3])]
      split <;> rfl
    | invalid =>
      refine ⟨by simp [body, gradientBody, a1], by simp [body, gradientBody, a2], by simp [body, gradientBody, a3], ?_⟩
      simp only [body, gradientBody]
      rw [hmn _ _ (by simp [a1]) (by simp [a2]) (by simp [a3])]
      split <;> rfl
    | ok a => cases hr
    | raises e => cases hr
  | valueGradient x o =>
    obtain ⟨a1, a2, a3⟩ := hFG x
    replace a2 := a2.trans hv
    cases o with
    | nan b =>
      refine ⟨by simp [body, valueGradientBody, a1], by simp [body, valueGradientBody, a2], by simp [body, valueGradientBody, a3], ?_⟩
      simp only [body, valueGradientBody]
      rw [hmn _ _ (by simp [a1]) (by simp [a2]) (by simp [a3])]
      split <;> rfl
    | invalid =>
      refine ⟨by simp [body, valueGradientBody, hp, a1], by simp [body, valueGradientBody, hp, a2],
        by simp [body, valueGradientBody, hp, a3], ?_⟩
      simp only [body, valueGradientBody, hp, Bool.false_eq_true, if_false]
      rw [hmn _ _ (by simp [a1]) (by simp [a2]) (by simp [a3])]
      split <;> rfl
    | ok a => cases hr
    | raises e => cases hr
  | hessian x o =>
    obtain ⟨a1, a2, a3⟩ := hH x
    replace a2 := a2.trans hv
    cases o with
    | nan b =>
      refine ⟨by simp [body, hessianBody, a1], by simp [body, hessianBody, a2], by simp [body, hessianBody, a3], ?_⟩
      simp only [body, hessianBody]
      rw [hmn _ _ (by simp [a1]) (by simp [a2]) (by simp [a3])]
      split <;> rfl
    | invalid =>
      refine ⟨by simp [body, hessianBody, a1], by simp [body, hessianBody, a2], by simp [body, hessianBody, a3], ?_⟩
      simp only [body, hessianBody]
      rw [hmn _ _ (by simp [a1]) (by simp [a2]) (by simp [a3])]
      split <;> rfl
    | ok a => cases hr
    | raises e => cases hr
  | ignoreEnter => cases hr
  | ignoreExit e => cases hr

/-- Counting changes nothing that the strategy uses. -/
theorem counting_nan (c : Cfg K) (s : St K) (r : Req K) :
    (counting c r s).1.nanCount = s.nanCount ∧ (counting c r s).1.lastValue = s.lastValue ∧ (counting c r s).1.lastGrad = s.lastGrad := by
  have hF : ∀ s : St K, (tick c incF s).1.nanCount = s.nanCount ∧ (tick c incF s).1.lastValue = s.lastValue ∧ (tick c incF s).1.lastGrad = s.lastGrad := by
    intro s; unfold tick; split
    · exact ⟨rfl, rfl, rfl⟩
    · split <;> exact ⟨rfl, rfl, rfl⟩
  have hG : ∀ s : St K, (tick c incG s).1.nanCount = s.nanCount ∧ (tick c incG s).1.lastValue = s.lastValue ∧ (tick c incG s).1.lastGrad = s.lastGrad := by
    intro s; unfold tick; split
    · exact ⟨rfl, rfl, rfl⟩
    · split <;> exact ⟨rfl, rfl, rfl⟩
  have hH : ∀ s : St K, (tick c incH s).1.nanCount = s.nanCount ∧ (tick c incH s).1.lastValue = s.lastValue ∧ (tick c incH s).1.lastGrad = s.lastGrad := by
    intro s; unfold tick; split
    · exact ⟨rfl, rfl, rfl⟩
    · split <;> exact ⟨rfl, rfl, rfl⟩
  cases r with
  | value x o => exact hF s
  | gradient x o => exact hG s
  | hessian x o => exact hH s
  | valueGradient x o =>
    have h1 := hF s
    simp only [counting]
    split
    · rename_i h; rw [h] at h1; exact h1
    · rename_i h; rw [h] at h1
      obtain ⟨b1, b2, b3⟩ := hG _
      exact ⟨by rw [b1, h1.1], by rw [b2, h1.2.1], by rw [b3, h1.2.2]⟩
  | ignoreEnter => exact ⟨rfl, rfl, rfl⟩
  | ignoreExit e => exact ⟨rfl, rfl, rfl⟩

/-- With no budget (or in an `ignore` block) nothing is rejected for it. -/
theorem counting_unlimited (c : Cfg K) (hm : c.maxiter = none) (s : St K) (r : Req K) : (counting c r s).2 = none := by
  have h : ∀ (inc : St K → St K) (s : St K), (tick c inc s).2 = none := by
    intro inc s; unfold tick exceeded; rw [hm]; simp; split <;> rfl
  cases r with
  | value x o => exact h _ s
  | gradient x o => exact h _ s
  | hessian x o => exact h _ s
  | valueGradient x o =>
    simp only [counting]
    split
    · rename_i hh; have := h incF s; rw [hh] at this; exact this
    · exact h _ _
  | ignoreEnter => rfl
  | ignoreExit e => rfl

/-- Consecutive NaNs (of any kind of request, found in any way) that follow a valid evaluation of the loss `v`: the `n`-th one is answered
with `v + n·penalty` and the reversed last gradient while `n` is below the tolerance; from the tolerance on the minimisation fails. The
budget is not the subject here and unlimited; the verbose printing is off. Missing from the full claim: the cases of `nan_verbose_violated`. -/
theorem nan_pushback_partial (c : Cfg K) (hp : c.doPrint = false) (hm : c.maxiter = none) (s : St K) (v : K) (hv : s.lastValue = some v)
    (h0 : s.nanCount = 0) (rs : List (Req K)) (hrs : ∀ r ∈ rs, r.isNan = true) (n : ℕ) (r : Req K) (hn : rs[n]? = some r) :
    (serve c s rs).2[n]? = some (if n + 1 < c.tol then pushed c v s.lastGrad (n + 1) r else .error .failMinimizeNaN) := by
  suffices h : ∀ (rs : List (Req K)) (s : St K) (k : ℕ) (g : Option (List K)), s.lastValue = some v → s.nanCount = k → s.lastGrad = g →
      (∀ r ∈ rs, r.isNan = true) → ∀ (n : ℕ) (r : Req K), rs[n]? = some r →
      (serve c s rs).2[n]? = some (if n + k + 1 < c.tol then pushed c v g (n + k + 1) r else .error .failMinimizeNaN) by
    have := h rs s 0 s.lastGrad hv h0 rfl hrs n r hn
    simpa using this
  intro rs
  induction rs with
  | nil => intro s k g _ _ _ _ n r hn; simp at hn
  | cons r0 rs ih =>
    intro s k g hv hk hg hrs n r hn
    obtain ⟨c1, c2, c3⟩ := counting_nan c s r0
    have hreq : request c s r0 = body c r0 (counting c r0 s).1 := by
      unfold request
      rw [show counting c r0 s = ((counting c r0 s).1, none) from Prod.ext rfl (counting_unlimited c hm s r0)]
    obtain ⟨b1, b2, b3, b4⟩ := nan_body c hp (counting c r0 s).1 v (by rw [c2, hv]) r0 (hrs r0 List.mem_cons_self)
    rw [← hreq] at b1 b2 b3 b4
    rw [c1, hk] at b1 b4
    rw [c3, hg] at b3 b4
    cases n with
    | zero =>
      simp only [List.getElem?_cons_zero, Option.some.injEq] at hn
      subst hn
      simp only [serve, List.getElem?_cons_zero, b4, Nat.zero_add]
    | succ n =>
      simp only [List.getElem?_cons_succ] at hn
      have := ih (request c s r0).1 (k + 1) g b2 b1 b3 (fun r hr => hrs r (List.mem_cons_of_mem _ hr)) n r hn
      simp only [serve, List.getElem?_cons_succ, this]
      rw [show n + 1 + k + 1 = n + (k + 1) + 1 by omega]

variable [LinearOrder K] [IsStrictOrderedRing K]

/-- With a positive penalty the reported losses are larger than the last valid one and strictly increasing. -/
theorem nan_pushback_increasing (c : Cfg K) (hpen : 0 < c.penalty) (v : K) (n : ℕ) :
    v < v + c.penalty * ((n + 1 : ℕ) : K) ∧ v + c.penalty * ((n + 1 : ℕ) : K) < v + c.penalty * ((n + 2 : ℕ) : K) := by
  constructor
  · have : 0 < c.penalty * ((n + 1 : ℕ) : K) := by positivity
    linarith
  · push_cast; nlinarith

omit [LinearOrder K] [IsStrictOrderedRing K] in
/-- A valid evaluation of any kind resets the count; a valid loss is remembered and reported unchanged. -/
theorem valid_resets (c : Cfg K) (s : St K) (x : List K) :
    (∀ v, (body c (.value x (.ok v)) s).1.nanCount = 0 ∧ (body c (.value x (.ok v)) s).1.lastValue = some v
        ∧ (body c (.value x (.ok v)) s).2 = .ok (.value (.num v)))
    ∧ (∀ v g, (body c (.valueGradient x (.ok (v, g))) s).1.nanCount = 0 ∧ (body c (.valueGradient x (.ok (v, g))) s).1.lastValue = some v
        ∧ (body c (.valueGradient x (.ok (v, g))) s).1.lastGrad = some g
        ∧ (body c (.valueGradient x (.ok (v, g))) s).2 = .ok (.valueGradient (.num v) (some g)))
    ∧ (∀ g, (body c (.gradient x (.ok g)) s).1.nanCount = 0 ∧ (body c (.gradient x (.ok g)) s).1.lastGrad = some g
        ∧ (body c (.gradient x (.ok g)) s).2 = .ok (.gradient (some g)))
    ∧ (∀ h, (body c (.hessian x (.ok h)) s).1.nanCount = 0 ∧ (body c (.hessian x (.ok h)) s).2 = .ok (.hessian (some h))) :=
  ⟨fun _ => ⟨rfl, rfl, rfl⟩, fun _ _ => ⟨rfl, rfl, rfl, rfl⟩, fun _ => ⟨rfl, rfl, rfl⟩, fun _ => ⟨rfl, rfl⟩⟩

omit [LinearOrder K] [IsStrictOrderedRing K] in
/-- A loss that is NaN from the start: NaN is reported as it is, unless the backend found it, then the minimisation fails at once. -/
theorem nan_at_start (c : Cfg K) (hp : c.doPrint = false) (ht : 1 < c.tol) (x0 x : List K) :
    (body c (.value x (.nan ())) (start x0)).2 = .ok (.value .nan) ∧ (body c (.value x .invalid) (start x0)).2 = .error .runtimeError := by
  constructor <;> simp [body, valueBody, minimizeNan, firstLoss, start, St.countF, hp, ht] <;> rfl

/-- A valid loss, NaNs of three kinds, a valid gradient (which resets the count) and another NaN; tolerance 4, penalty 100. -/
example : (serve (⟨none, false, 100, 4⟩ : Cfg ℚ) (start [0])
      [.value [1] (.ok 5), .value [2] (.nan ()), .hessian [2] .invalid, .valueGradient [3] .invalid, .value [2] (.nan ()), .gradient [1] (.ok [7]),
        .valueGradient [1] (.nan none)]).2
    = [.ok (.value (.num 5)), .ok (.value (.num 105)), .ok (.hessian none), .ok (.valueGradient (.num 305) none), .error .failMinimizeNaN,
        .ok (.gradient (some [7])), .ok (.valueGradient (.num 105) (some [-7]))] := by decide +kernel

/-- The full property fails in verbose mode: a NaN found by the backend is not pushed back but ends in a `ValueError`, because the message
that takes the place of the loss is printed as a number. -/
theorem nan_verbose_violated :
    (serve (⟨none, true, 100, 30⟩ : Cfg ℚ) (start [0]) [.value [1] (.ok 5), .value [2] .invalid]).2
      = [.ok (.value (.num 5)), .error .valueError] := by decide +kernel

end Zfit.Min
