import Verif.Min.LoopModel
import Verif.Common.Except
import Mathlib.Algebra.Order.Field.Rat
import Mathlib.Tactic.Linarith
import Mathlib.Tactic.NormNum

/-!
# Properties of the minimisers' own logic

* C50: `minimize_leaves_no_trace_partial`, `minimize_reusable`, `minimize_answer`; `minimize_state_violated`,
  `minimize_params_violated`, `minimize_init_violated`, `minimize_none_violated`, `minimize_no_init_argument_violated`
* C51: `step_minimizer_terminates`, `step_minimizer_result`, `step_minimizer_errors`
* C67: `tol_factor_bounds`, `tolerances_shrink`
-/

namespace Zfit.Min

open Zfit

/-! ## C50 -/

theorem assign_untouched {K : Type} (a : List (ℕ × K)) (v : Values K) (p : ℕ) (h : p ∉ a.map (·.1)) : assign a v p = v p := by
  unfold assign
  induction a generalizing v with
  | nil => rfl
  | cons x xs ih =>
    simp only [List.map_cons, List.mem_cons, not_or] at h
    rw [List.foldl_cons, ih _ h.2]
    simp [h.1]

theorem assign_const {K : Type} (ps : List ℕ) (f v : Values K) (p : ℕ) (h : p ∈ ps) : assign (ps.map fun p => (p, f p)) v p = f p := by
  unfold assign
  induction ps generalizing v with
  | nil => cases h
  | cons x xs ih =>
    rw [List.map_cons, List.foldl_cons]
    by_cases hx : p ∈ xs
    · exact ih _ hx
    · have hpx : p = x := (List.mem_cons.1 h).resolve_right hx
      have := assign_untouched (xs.map fun p => (p, f p)) (fun i => if i = x then f x else v i) p (by simpa using hx)
      unfold assign at this
      rw [this, hpx, if_pos rfl]

/-- If `minimize` returns and no initial values were given, the minimiser is as before and, in no-update mode, so are all parameters of
the loss. Missing from the full claim: the cases of `minimize_state_violated`, `minimize_params_violated`, `minimize_init_violated`,
`minimize_none_violated`, `minimize_no_init_argument_violated`. -/
theorem minimize_leaves_no_trace_partial {K R : Type} (j : Job K R) (fuel : ℕ) (w : W K) (hw : w.stateful = false) (hg : j.given = [])
    (r : Option R) (hr : (minimize j fuel w).2 = .ok r) :
    (minimize j fuel w).1.stateful = w.stateful ∧
      (j.autoUpdate = false → ∀ p ∈ j.lossParams, (minimize j fuel w).1.vals p = w.vals p) := by
  unfold minimize at hr ⊢
  dsimp only at hr ⊢
  rcases hc : callMinimize j fuel j.init (assign j.given w.vals) with ⟨v, _ | r'⟩
  · rw [hc] at hr; cases hr
  · simp only
    refine ⟨hw.symm, fun hu p hp => ?_⟩
    rw [hu]
    simp only [Bool.false_eq_true, if_false]
    rw [assign_const _ _ _ _ hp, hg]
    rfl

/-- A minimiser can be used again, also after a failure: what it does next does not depend on the state that was left. -/
theorem minimize_reusable {K R : Type} (j : Job K R) (fuel : ℕ) (v : Values K) : minimize j fuel ⟨v, true⟩ = minimize j fuel ⟨v, false⟩ := rfl

/-- What `minimize` answers: the result of the backend; a failure is answered by the result of the strategy if it has one and raised
otherwise; other exceptions are raised. An `init` the backend cannot use is put into the parameters and the backend called again. -/
theorem minimize_answer {K R : Type} (j : Job K R) (fuel : ℕ) (w : W K) (v : Values K) (e : End R)
    (he : j.backend j.init.isSome (assign j.given w.vals) = (v, e)) :
    (∀ r, e = .result r → (minimize j (fuel + 1) w).2 = .ok (some r))
    ∧ (∀ x, e = .failed x → (minimize j (fuel + 1) w).2 = match j.strategyResult with | some r => .ok (some r) | none => .error x)
    ∧ (∀ x, e = .other x → (minimize j (fuel + 1) w).2 = .error x)
    ∧ (∀ a r v', e = .initNotImplemented → j.init = some a → j.backend false (assign a v) = (v', .result r) →
        (minimize j (fuel + 2) w).2 = .ok (some r)) := by
  refine ⟨?_, ?_, ?_, ?_⟩
  · rintro r rfl
    simp [minimize, callMinimize, he]
  · rintro x rfl
    cases hs : j.strategyResult <;> simp [minimize, callMinimize, he, hs]
  · rintro x rfl
    simp [minimize, callMinimize, he]
  · rintro a r v' rfl ha hb
    rw [ha] at he
    simp only [Option.isSome_some] at he
    simp [minimize, callMinimize, he, ha, hb]

/-- A backend that moves the only parameter to 7 and then ends with `e`. -/
def exJob (e : End ℕ) (given : List (ℕ × ℚ)) (auto : Bool) : Job ℚ ℕ := ⟨[0], given, none, fun _ v => (fun i => if i = 0 then 7 else v i, e), none, auto⟩

example : (minimize (exJob (.result 5) [] false) 3 ⟨fun _ => 1, false⟩).1.vals 0 = 1 := by decide +kernel

/-- The property fails: after an exception the minimiser keeps the state of the failed minimisation ... -/
theorem minimize_state_violated : (minimize (exJob (.other .userException) [] true) 3 ⟨fun _ => 1, false⟩).2 = .error .userException
    ∧ (minimize (exJob (.other .userException) [] true) 3 ⟨fun _ => 1, false⟩).1.stateful = true := by decide +kernel

/-- ... and in no-update mode the parameters keep the values of the backend. -/
theorem minimize_params_violated : (minimize (exJob (.failed .failMinimizeNaN) [] false) 3 ⟨fun _ => 1, false⟩).2 = .error .failMinimizeNaN
    ∧ (minimize (exJob (.failed .failMinimizeNaN) [] false) 3 ⟨fun _ => 1, false⟩).1.vals 0 = 7 := by decide +kernel

/-- In no-update mode the parameters are left at the initial values that were given, not at the values they had. -/
theorem minimize_init_violated : (minimize (exJob (.result 5) [(0, 3)] false) 3 ⟨fun _ => 1, false⟩).1.vals 0 = 3 := by decide +kernel

/-- When the budget is exhausted and the backend does not handle it, `minimize` returns `None` instead of a result. -/
theorem minimize_none_violated : (minimize (exJob .maxiter [] true) 3 ⟨fun _ => 1, false⟩).2 = .ok none := by decide +kernel

/-- A backend whose `_minimize` has no argument `init` is meant to be called again without it, but is called with it again, for ever. -/
theorem minimize_no_init_argument_violated {K R : Type} (j : Job K R) (hj : ∀ b v, (j.backend b v).2 = .noInitArgument) (fuel : ℕ) (w : W K) :
    (minimize j fuel w).2 = .error .runtimeError := by
  have : ∀ fuel init v, (callMinimize j fuel init v).2 = .error .runtimeError := by
    intro fuel
    induction fuel with
    | zero => intro _ _; rfl
    | succ n ih =>
      intro init v
      unfold callMinimize
      rw [show j.backend init.isSome v = ((j.backend init.isSome v).1, .noInitArgument) from Prod.ext rfl (hj _ _)]
      exact ih none _
  unfold minimize
  dsimp only
  rw [show callMinimize j fuel j.init (assign j.given w.vals) = ((callMinimize j fuel j.init (assign j.given w.vals)).1, .error .runtimeError)
    from Prod.ext rfl (this _ _ _)]

/-! ## C51 -/

variable {K : Type} [Field K] [LinearOrder K]

/-- Specification: the value after `n` steps; -10 before the first. -/
def Steps.val (s : Steps K) : ℕ → Option K
  | 0 => some (-10)
  | n + 1 => match s.value (n + 1) with
    | .ok v => v
    | .error _ => none

/-- Specification: the changes the criterion is decided on after `n` steps: the last five of five ones followed by all changes. -/
def Steps.window (s : Steps K) (n : ℕ) : List (Option K) :=
  (List.replicate 5 (some 1) ++ (List.range n).map (fun k => Zfit.Min.change (s.val (k + 1)) (s.val k))).drop n

/-- Specification: is the criterion tested after step `n`?  When the changes are all numbers with a sum below the tolerance
and `n` is not a multiple of three, or when the budget is exceeded. -/
def Steps.Tested (s : Steps K) (n : ℕ) : Prop :=
  ((∃ l : List K, s.window n = l.map some ∧ l.sum < s.tol) ∧ n % 3 ≠ 0) ∨ s.maxiter < n

theorem nanSum_some (l : List (Option K)) (a : K) : nanSum l = some a ↔ ∃ m : List K, l = m.map some ∧ m.sum = a := by
  induction l generalizing a with
  | nil =>
    constructor
    · intro h
      refine ⟨[], rfl, ?_⟩
      simpa [nanSum] using h
    · rintro ⟨m, h1, h2⟩
      have : m = [] := by simpa using h1.symm
      subst this
      simpa [nanSum] using h2
  | cons x l ih =>
    have e : nanSum (x :: l) = match x, nanSum l with | some a, some b => some (a + b) | _, _ => none := rfl
    rw [e]
    constructor
    · intro h
      cases x with
      | none => cases h
      | some x =>
        cases hl : nanSum l with
        | none => rw [hl] at h; cases h
        | some b =>
          rw [hl] at h
          obtain ⟨m, h1, h2⟩ := (ih b).1 hl
          refine ⟨x :: m, by rw [h1]; rfl, ?_⟩
          rw [List.sum_cons, h2]
          exact Option.some.inj h
    · rintro ⟨m, h1, h2⟩
      cases m with
      | nil => cases h1
      | cons y m =>
        rw [List.map_cons, List.cons.injEq] at h1
        obtain ⟨rfl, h1⟩ := h1
        rw [(ih m.sum).2 ⟨m, h1, rfl⟩, ← h2, List.sum_cons]

theorem nanLt_iff (l : List (Option K)) (tol : K) :
    nanLt (nanSum l) tol = true ↔ ∃ m : List K, l = m.map some ∧ m.sum < tol := by
  constructor
  · intro h
    cases hs : nanSum l with
    | none => rw [hs] at h; cases h
    | some a =>
      rw [hs] at h
      obtain ⟨m, h1, h2⟩ := (nanSum_some l a).1 hs
      exact ⟨m, h1, by rw [h2]; simpa [nanLt] using h⟩
  · rintro ⟨m, h1, h2⟩
    rw [(nanSum_some l m.sum).2 ⟨m, h1, rfl⟩]
    simpa [nanLt] using h2

theorem window_succ (s : Steps K) (n : ℕ) : (s.window n).tail ++ [change (s.val (n + 1)) (s.val n)] = s.window (n + 1) := by
  unfold Steps.window
  rw [List.tail_drop, List.range_succ, List.map_append, ← List.append_assoc]
  rw [List.drop_append_of_le_length (l₁ := List.replicate 5 (some 1) ++ (List.range n).map (fun k => change (s.val (k + 1)) (s.val k)))
    (by simp)]
  rfl

theorem turn_spec (s : Steps K) (n : ℕ) (x : (List (Option K) × Option K) ⊕ StepResult) (h : stepTurn s n (s.window n) (s.val n) = .ok x) :
    (∃ r, x = .inr r ∧ s.Tested (n + 1) ∧ r.niter = n + 1 ∧ s.converged (n + 1) = .ok r.valid ∧ r.converged = r.valid
        ∧ r.status = (if r.valid then 0 else 10) ∧ (r.valid = true ∨ s.maxiter < n + 1))
    ∨ (x = .inl (s.window (n + 1), s.val (n + 1)) ∧ n + 1 ≤ s.maxiter ∧ (s.Tested (n + 1) → s.converged (n + 1) = .ok false)) := by
  unfold stepTurn at h
  obtain ⟨cur, hcur, h⟩ := bind_eq_ok.1 h
  have hval : s.val (n + 1) = cur := by simp [Steps.val, hcur]
  have hw : (s.window n).tail ++ [change cur (s.val n)] = s.window (n + 1) := by rw [← hval]; exact window_succ s n
  dsimp only at h
  rw [hw] at h
  by_cases ht : ((nanLt (nanSum (s.window (n + 1))) s.tol && (n + 1) % 3 != 0) || decide (s.maxiter < n + 1)) = true
  · rw [if_pos ht] at h
    have htest : s.Tested (n + 1) := by
      rcases Bool.or_eq_true_iff.1 ht with h1 | h1
      · left; rw [← nanLt_iff]; simpa using h1
      · right; simpa using h1
    obtain ⟨conv, hconv, h⟩ := bind_eq_ok.1 h
    by_cases hc : (conv || decide (s.maxiter < n + 1)) = true
    · rw [if_pos hc] at h
      left
      refine ⟨stepResult (n + 1) conv, (Except.ok.inj h).symm, htest, rfl, hconv, rfl, rfl, ?_⟩
      rcases Bool.or_eq_true_iff.1 hc with h1 | h1
      · exact .inl h1
      · exact .inr (by simpa using h1)
    · rw [if_neg hc] at h
      right
      simp only [Bool.or_eq_true, decide_eq_true_eq, not_or, Bool.not_eq_true] at hc
      refine ⟨by rw [hval]; exact (Except.ok.inj h).symm, Nat.not_lt.1 hc.2, fun _ => by rw [hconv, hc.1]⟩
  · rw [if_neg ht] at h
    right
    simp only [Bool.or_eq_true, Bool.and_eq_true, decide_eq_true_eq, not_or, bne_iff_ne] at ht
    refine ⟨by rw [hval]; exact (Except.ok.inj h).symm, Nat.not_lt.1 ht.2, fun htest => ?_⟩
    rcases htest with h1 | h1
    · rw [← nanLt_iff] at h1; exact absurd h1 ht.1
    · exact absurd h1 ht.2

theorem turn_last (s : Steps K) (n : ℕ) (hn : s.maxiter ≤ n) (y : List (Option K) × Option K) :
    stepTurn s n (s.window n) (s.val n) ≠ .ok (.inl y) := by
  intro h
  rcases turn_spec s n _ h with ⟨r, hr, _⟩ | ⟨_, hle, _⟩
  · cases hr
  · omega

theorem loop_enough (s : Steps K) (fuel n : ℕ) (h : s.maxiter + 1 ≤ fuel + n) (hf : 0 < fuel) (extra : ℕ) :
    ∃ r, stepLoop s fuel n (s.window n) (s.val n) = some r ∧ stepLoop s (fuel + extra) n (s.window n) (s.val n) = some r := by
  induction fuel generalizing n with
  | zero => cases hf
  | succ f ih =>
    rw [show f + 1 + extra = (f + extra) + 1 by omega]
    unfold stepLoop
    rcases ht : stepTurn s n (s.window n) (s.val n) with e | (⟨c, v⟩ | r)
    · exact ⟨_, rfl, rfl⟩
    · rcases turn_spec s n _ ht with ⟨r, hr, _⟩ | ⟨hx, hle, _⟩
      · cases hr
      · injection hx with hx; injection hx with h1 h2
        subst h1 h2
        exact ih (n + 1) (by omega) (by omega)
    · exact ⟨_, rfl, rfl⟩

/-- The loop ends, with a result or an exception, after at most `maxiter + 1` steps, whatever the steps and the criterion do. -/
theorem step_minimizer_terminates (s : Steps K) : ∃ r, ∀ fuel, s.maxiter < fuel → stepMinimize s fuel = some r := by
  have hw : s.window 0 = List.replicate 5 (some 1) := by simp [Steps.window]
  obtain ⟨r, hr, -⟩ := loop_enough s (s.maxiter + 1) 0 (by omega) (by omega) 0
  refine ⟨r, fun fuel hf => ?_⟩
  obtain ⟨r', h1, h2⟩ := loop_enough s (s.maxiter + 1) 0 (by omega) (by omega) (fuel - (s.maxiter + 1))
  rw [hr] at h1
  injection h1 with h1
  rw [show s.maxiter + 1 + (fuel - (s.maxiter + 1)) = fuel by omega, hw, ← h1] at h2
  exact h2

theorem loop_result (s : Steps K) (fuel n : ℕ) (hn : n ≤ s.maxiter) (r : StepResult)
    (h : stepLoop s fuel n (s.window n) (s.val n) = some (.ok r)) :
    n < r.niter ∧ r.niter ≤ s.maxiter + 1 ∧ s.Tested r.niter ∧ s.converged r.niter = .ok r.valid ∧ r.converged = r.valid
      ∧ r.status = (if r.valid then 0 else 10) ∧ (r.valid = true ∨ r.niter = s.maxiter + 1)
      ∧ ∀ k, n < k → k < r.niter → s.Tested k → s.converged k = .ok false := by
  induction fuel generalizing n with
  | zero => cases h
  | succ f ih =>
    unfold stepLoop at h
    rcases ht : stepTurn s n (s.window n) (s.val n) with e | (⟨c, v⟩ | r')
    · rw [ht] at h; cases h
    · rw [ht] at h
      rcases turn_spec s n _ ht with ⟨r, hr, _⟩ | ⟨hx, hle, hconv⟩
      · cases hr
      · injection hx with hx; injection hx with h1 h2
        subst h1 h2
        obtain ⟨a1, a2, a3, a4, a5, a6, a7, a8⟩ := ih (n + 1) hle h
        refine ⟨by omega, a2, a3, a4, a5, a6, a7, fun k hk1 hk2 hk3 => ?_⟩
        by_cases hk : k = n + 1
        · subst hk; exact hconv hk3
        · exact a8 k (by omega) hk2 hk3
    · rw [ht] at h
      cases h
      rcases turn_spec s n _ ht with ⟨r'', hr, b1, b2, b3, b4, b5, b6⟩ | ⟨hx, _⟩
      · cases hr
        rw [b2]
        refine ⟨by omega, by omega, b1, b3, b4, b5, ?_, fun k _ _ => by omega⟩
        rcases b6 with b6 | b6
        · exact .inl b6
        · exact .inr (by omega)
      · cases hx

/-- The result: at most `maxiter + 1` steps; valid, and converged, exactly if the criterion was met after the last step; not valid only when
the budget was used up; the steps before at which the criterion was tested did not meet it. -/
theorem step_minimizer_result (s : Steps K) (fuel : ℕ) (r : StepResult) (h : stepMinimize s fuel = some (.ok r)) :
    0 < r.niter ∧ r.niter ≤ s.maxiter + 1 ∧ s.Tested r.niter ∧ (r.valid = true ↔ s.converged r.niter = .ok true) ∧ r.converged = r.valid
      ∧ r.status = (if r.valid then 0 else 10) ∧ (r.valid = false → r.niter = s.maxiter + 1)
      ∧ ∀ k, 0 < k → k < r.niter → s.Tested k → s.converged k = .ok false := by
  have hw : s.window 0 = List.replicate 5 (some 1) := by simp [Steps.window]
  unfold stepMinimize at h
  rw [← hw] at h
  obtain ⟨a1, a2, a3, a4, a5, a6, a7, a8⟩ := loop_result s fuel 0 (Nat.zero_le _) r h
  refine ⟨a1, a2, a3, by rw [a4]; simp, a5, a6, fun hv => ?_, a8⟩
  rcases a7 with h1 | h1
  · rw [hv] at h1; cases h1
  · exact h1

theorem loop_errors (s : Steps K) (fuel n : ℕ) (hn : n ≤ s.maxiter) (e : Err)
    (h : stepLoop s fuel n (s.window n) (s.val n) = some (.error e)) :
    ∃ k, 0 < k ∧ k ≤ s.maxiter + 1 ∧ (s.value k = .error e ∨ s.converged k = .error e) := by
  induction fuel generalizing n with
  | zero => cases h
  | succ f ih =>
    unfold stepLoop at h
    rcases ht : stepTurn s n (s.window n) (s.val n) with e' | (⟨c, v⟩ | r')
    · rw [ht] at h
      cases h
      refine ⟨n + 1, by omega, by omega, ?_⟩
      unfold stepTurn at ht
      rcases hv : s.value (n + 1) with e1 | v1
      · rw [hv] at ht; left; cases ht; rfl
      · rw [hv] at ht
        right
        simp only [except_bind_ok] at ht
        split at ht
        · rcases hc : s.converged (n + 1) with e2 | c2
          · rw [hc] at ht; cases ht; rfl
          · rw [hc] at ht; simp only [except_bind_ok] at ht; split at ht <;> cases ht
        · cases ht
    · rw [ht] at h
      rcases turn_spec s n _ ht with ⟨r, hr, _⟩ | ⟨hx, hle, hconv⟩
      · cases hr
      · injection hx with hx; injection hx with h1 h2
        subst h1 h2
        exact ih (n + 1) hle h
    · rw [ht] at h; cases h

/-- An exception comes from one of the first `maxiter + 1` steps or from the test of the criterion after it. -/
theorem step_minimizer_errors (s : Steps K) (fuel : ℕ) (e : Err) (h : stepMinimize s fuel = some (.error e)) :
    ∃ k, 0 < k ∧ k ≤ s.maxiter + 1 ∧ (s.value k = .error e ∨ s.converged k = .error e) := by
  have hw : s.window 0 = List.replicate 5 (some 1) := by simp [Steps.window]
  unfold stepMinimize at h
  rw [← hw] at h
  exact loop_errors s fuel 0 (Nat.zero_le _) e h

/-- Steps that do not change anything: tested first when the five ones are gone and the first change is out of the window (step 7; step 6 is
not tested), met there. -/
def exSteps (m : ℕ) : Steps ℚ := ⟨fun _ => .ok (some 3), fun n => .ok (decide (7 ≤ n)), 1 / 1000, m⟩
example : stepMinimize (exSteps 50) 51 = some (.ok ⟨7, true, true, 0⟩) := by decide +kernel
example : stepMinimize (exSteps 4) 5 = some (.ok ⟨5, false, false, 10⟩) := by decide +kernel

/-! ## C67 -/

/-- The factor is between 0.01 and 0.2. -/
theorem tol_factor_bounds (tol criterion : ℝ) : 0.01 ≤ tolFactor tol criterion ∧ tolFactor tol criterion ≤ 0.2 := by
  have hlo : (0.0001 : ℝ) ≤ min (max (tol / criterion * 0.3) 0.0001) 0.04 := le_min (le_max_right _ _) (by norm_num)
  have hhi : min (max (tol / criterion * 0.3) 0.0001) 0.04 ≤ (0.04 : ℝ) := min_le_right _ _
  unfold tolFactor
  constructor
  · refine le_min ?_ (by norm_num)
    refine Real.le_sqrt_of_sq_le ?_
    linarith [hlo, show ((0.01 : ℝ) ^ 2 = 0.0001) by norm_num]
  · refine le_trans (min_le_left _ _) ?_
    rw [show (0.2 : ℝ) = Real.sqrt 0.04 by rw [show (0.04 : ℝ) = 0.2 ^ 2 by norm_num, Real.sqrt_sq (by norm_num)]]
    exact Real.sqrt_le_sqrt hhi

/-- The largest factor an update can have for a tolerance of this name. -/
noncomputable def largest : TolName → ℝ
  | .other _ => 0.2
  | _ => 0.45

/-- The smallest. -/
noncomputable def smallest : TolName → ℝ
  | .other _ => 0.01
  | _ => 0.1

theorem update_one (tol criterion : ℝ) (internal : List (TolName × ℝ)) (i : ℕ) (n : TolName) (t : ℝ) (h : internal[i]? = some (n, t)) :
    ∃ f, (updateTol tol criterion internal)[i]? = some (n, t * f) ∧ smallest n ≤ f ∧ f ≤ largest n := by
  obtain ⟨h1, h2⟩ := tol_factor_bounds tol criterion
  have hs1 : (0.1 : ℝ) ≤ Real.sqrt (tolFactor tol criterion) := Real.le_sqrt_of_sq_le (by norm_num at h1 ⊢; linarith)
  have hs2 : Real.sqrt (tolFactor tol criterion) ≤ 0.45 := by
    rw [show (0.45 : ℝ) = Real.sqrt (0.45 ^ 2) by rw [Real.sqrt_sq (by norm_num)]]
    exact Real.sqrt_le_sqrt (by norm_num at h2 ⊢; linarith)
  unfold updateTol
  rw [List.getElem?_map, h]
  cases n with
  | gtol => exact ⟨_, rfl, hs1, hs2⟩
  | xtol => exact ⟨_, rfl, hs1, hs2⟩
  | other k => exact ⟨_, rfl, h1, h2⟩

/-- After any sequence of updates with any criterion values, every internal tolerance has shrunk geometrically and is still positive:
by at least a factor 0.2 (0.45 for `gtol` and `xtol`) and at most a factor 0.01 (0.1) per update. -/
theorem tolerances_shrink (tol : ℝ) (criteria : List ℝ) (internal : List (TolName × ℝ)) (i : ℕ) (n : TolName) (t : ℝ)
    (h : internal[i]? = some (n, t)) (ht : 0 < t) :
    ∃ t', (criteria.foldl (fun l c => updateTol tol c l) internal)[i]? = some (n, t')
      ∧ t * smallest n ^ criteria.length ≤ t' ∧ t' ≤ t * largest n ^ criteria.length ∧ 0 < t' := by
  have hsm : 0 < smallest n := by cases n <;> norm_num [smallest]
  induction criteria generalizing internal t with
  | nil => exact ⟨t, h, by simp, by simp, ht⟩
  | cons c cs ih =>
    obtain ⟨f, hf, hlo, hhi⟩ := update_one tol c internal i n t h
    have hfpos : 0 < f := lt_of_lt_of_le hsm hlo
    obtain ⟨t', h1, h2, h3, h4⟩ := ih (updateTol tol c internal) (t * f) hf (mul_pos ht hfpos)
    refine ⟨t', h1, le_trans ?_ h2, le_trans h3 ?_, h4⟩
    · rw [List.length_cons, pow_succ', ← mul_assoc]
      exact mul_le_mul_of_nonneg_right (mul_le_mul_of_nonneg_left hlo ht.le) (pow_nonneg hsm.le _)
    · rw [List.length_cons, pow_succ', ← mul_assoc]
      exact mul_le_mul_of_nonneg_right (mul_le_mul_of_nonneg_left hhi ht.le) (pow_nonneg (le_trans hsm.le (le_trans hlo hhi)) _)

example : ∃ t', ([5, 2, 0.1].foldl (fun l c => updateTol 0.001 c l) [(.other 0, 1), (.xtol, 0.5)])[1]? = some (.xtol, t') ∧ 0 < t' :=
  let ⟨t', h, _, _, h'⟩ := tolerances_shrink 0.001 [5, 2, 0.1] [(.other 0, 1), (.xtol, 0.5)] 1 .xtol 0.5 rfl (by norm_num)
  ⟨t', h, h'⟩

end Zfit.Min
