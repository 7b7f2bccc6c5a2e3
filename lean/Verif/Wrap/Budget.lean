import Verif.Wrap.Props

/-!
# C96, C100: nothing runs once the budget is used up
-/

namespace Zfit.Wrap

open Zfit

variable {X K : Type} [Field K] [LinearOrder K]

/-- Run `j` uses the budget up: it is stopped for that, or it ends and the number of evaluations is above the limit. -/
def UsesUp (s : Setup X K) (j : ℕ) : Prop := ∀ x, s.run j x = .budget ∨ (s.over j = true ∧ ∃ y v, s.run j x = .done y v)

/-- C100 (NLopt): after a run that uses the budget up there is no other run. -/
theorem nlopt_budget_stops (s : Nlopt X K) (j : ℕ) (hj : UsesUp s.toSetup j) (run : ℕ → X → Run X K) (h : ∀ i ≤ j, run i = s.run i) :
    nlopt { s with run := run } = nlopt s := by
  have key : ∀ (fuel i : ℕ) (st : NloptSt X K), i ≤ j → nloptLoop { s with run := run } fuel i st = nloptLoop s fuel i st := by
    intro fuel
    induction fuel with
    | zero => intro i st _; rfl
    | succ n ih =>
      intro i st hi
      have ht : nloptTurn { s with run := run } i st = nloptTurn s i st := by
        unfold nloptTurn nloptCall
        dsimp only
        rw [h i hi]
        rfl
      unfold nloptLoop
      rw [ht]
      rcases Nat.lt_or_ge i j with hlt | hge
      · cases nloptTurn s i st with
        | error e => rfl
        | ok o => cases o with
          | inr r => rfl
          | inl st' => exact ih (i + 1) st' hlt
      · obtain rfl : i = j := Nat.le_antisymm hi hge
        have hend : ∀ st', nloptTurn s i st ≠ .ok (.inl st') := by
          intro st' hc
          unfold nloptTurn nloptCall at hc
          rcases hj st.x with hb | ⟨ho, y, v, hd⟩
          · rw [hb] at hc
            simp only [except_bind_ok, Bool.or_true, if_true] at hc
            simp only [bind_eq_ok, except_pure, Except.ok.injEq] at hc
            obtain ⟨_, _, _, _, hc⟩ := hc
            cases hc
          · rw [hd] at hc
            simp only [except_bind_ok, ho, Bool.or_true, if_true] at hc
            simp only [bind_eq_ok, except_pure, Except.ok.injEq] at hc
            obtain ⟨_, _, _, _, hc⟩ := hc
            cases hc
        cases ho : nloptTurn s i st with
        | error e => rfl
        | ok o => cases o with
          | inr r => rfl
          | inl st' => exact absurd ho (hend st')
  exact key 20 0 _ (Nat.zero_le _)

/-- C100 (Ipyopt): after a run that uses the budget up there is no other run. -/
theorem ipopt_budget_stops (s : Setup X K) (j : ℕ) (hj : UsesUp s j) (run : ℕ → X → Run X K) (h : ∀ i ≤ j, run i = s.run i) :
    ipopt { s with run := run } = ipopt s := by
  have key : ∀ (fuel i : ℕ) (st : IpoptSt X K), i ≤ j → ipoptLoop { s with run := run } fuel i st = ipoptLoop s fuel i st := by
    intro fuel
    induction fuel with
    | zero => intro i st _; rfl
    | succ n ih =>
      intro i st hi
      have ht : ipoptTurn { s with run := run } i st = ipoptTurn s i st := by
        unfold ipoptTurn ipoptCall
        dsimp only
        rw [h i hi]
        rfl
      unfold ipoptLoop
      rw [ht]
      rcases Nat.lt_or_ge i j with hlt | hge
      · cases ipoptTurn s i st with
        | error e => rfl
        | ok o => cases o with
          | inr r => rfl
          | inl st' => exact ih (i + 1) st' hlt
      · obtain rfl : i = j := Nat.le_antisymm hi hge
        have hend : ∀ st', ipoptTurn s i st ≠ .ok (.inl st') := by
          intro st' hc
          unfold ipoptTurn ipoptCall at hc
          rcases hj st.x with hb | ⟨ho, y, v, hd⟩
          · rw [hb] at hc
            simp only [except_bind_ok, Bool.or_true, if_true, except_pure, Except.ok.injEq] at hc
            cases hc
          · rw [hd] at hc
            simp only [except_bind_ok, ho, Bool.or_true, if_true, except_pure, Except.ok.injEq] at hc
            cases hc
        cases ho : ipoptTurn s i st with
        | error e => rfl
        | ok o => cases o with
          | inr r => rfl
          | inl st' => exact absurd ho (hend st')
  exact key 20 0 _ (Nat.zero_le _)

/-- C100 (Scipy): after a run that uses the budget up there is no other run. -/
theorem scipy_budget_stops (s : Scipy X K) (j : ℕ) (hj : UsesUp s.toSetup j) (run : ℕ → X → Run X K) (h : ∀ i ≤ j, run i = s.run i) :
    scipy { s with run := run } = scipy s := by
  have key : ∀ (fuel i : ℕ) (st : ScipySt X K), i ≤ j → scipyLoop { s with run := run } fuel i st = scipyLoop s fuel i st := by
    intro fuel
    induction fuel with
    | zero => intro i st _; rfl
    | succ n ih =>
      intro i st hi
      have ht : scipyTurn { s with run := run } i st = scipyTurn s i st := by
        unfold scipyTurn
        dsimp only
        rw [h i hi]
      unfold scipyLoop
      rw [ht]
      rcases Nat.lt_or_ge i j with hlt | hge
      · cases scipyTurn s i st with
        | error e => rfl
        | ok o => cases o with
          | inr r => rfl
          | inl st' => exact ih (i + 1) st' hlt
      · obtain rfl : i = j := Nat.le_antisymm hi hge
        have hend : ∀ st', scipyTurn s i st ≠ .ok (.inl st') := by
          intro st' hc
          unfold scipyTurn at hc
          rcases hj st.init with hb | ⟨ho, y, v, hd⟩
          · rw [hb] at hc
            cases hc
          · rw [hd] at hc
            simp only [ho, Bool.or_true, if_true] at hc
            split_ifs at hc <;> cases hc
        cases ho : scipyTurn s i st with
        | error e => rfl
        | ok o => cases o with
          | inr r => rfl
          | inl st' => exact absurd ho (hend st')
  exact key 20 0 _ (Nat.zero_le _)

/-- C96 (Scipy): if every run ends with a parameter at a limit, there are no more than five runs. -/
theorem scipy_limits_stop (s : Scipy X K) (hl : ∀ i x y v, s.run i x = .done y v → s.atLimit y = true) (run : ℕ → X → Run X K)
    (h : ∀ i ≤ 4, run i = s.run i) : scipy { s with run := run } = scipy s := by
  have key : ∀ (fuel i : ℕ) (st : ScipySt X K), i ≤ 4 → st.nlim = i → scipyLoop { s with run := run } fuel i st = scipyLoop s fuel i st := by
    intro fuel
    induction fuel with
    | zero => intro i st _ _; rfl
    | succ n ih =>
      intro i st hi hn
      have ht : scipyTurn { s with run := run } i st = scipyTurn s i st := by
        unfold scipyTurn
        dsimp only
        rw [h i hi]
      unfold scipyLoop
      rw [ht]
      cases ho : scipyTurn s i st with
      | error e => rfl
      | ok o => cases o with
        | inr r => rfl
        | inl st' =>
          have : i + 1 ≤ 4 ∧ st'.nlim = i + 1 := by
            unfold scipyTurn at ho
            cases hr : s.run i st.init with
            | budget => rw [hr] at ho; cases ho
            | runtime => rw [hr] at ho; cases ho
            | failed e => rw [hr] at ho; cases ho
            | done y v =>
              rw [hr] at ho
              simp only [hl i _ y v hr, if_true, hn] at ho
              split at ho
              · cases ho
              · split at ho
                · cases ho
                · rename_i h4
                  split at ho
                  · cases ho
                  · simp only [Except.ok.injEq, Sum.inl.injEq] at ho
                    subst ho
                    exact ⟨by omega, rfl⟩
          exact ih (i + 1) st' this.1 this.2
  exact key 20 0 _ (Nat.zero_le _) rfl

/-- C96 (Scipy): the reason that parameters are at their limits is only given if a run ended there. -/
theorem scipy_limits_reason (s : Scipy X K) (hl : ∀ i x y v, s.run i x = .done y v → s.atLimit y = false) (r : Report X K) (h : scipy s = .ok r) :
    r.message ≠ .atLimits := by
  have key : ∀ (fuel i : ℕ) (st : ScipySt X K), st.nlim = 0 → scipyLoop s fuel i st = .ok r → r.message ≠ .atLimits := by
    intro fuel
    induction fuel with
    | zero =>
      intro i st _ h
      unfold scipyLoop at h
      split at h
      · cases h
      · simp only [Except.ok.injEq] at h
        subst h
        simp
    | succ n ih =>
      intro i st hn h
      unfold scipyLoop at h
      cases ho : scipyTurn s i st with
      | error e => rw [ho] at h; cases h
      | ok o =>
        rw [ho] at h
        unfold scipyTurn at ho
        cases hr : s.run i st.init with
        | budget => rw [hr] at ho; cases ho
        | runtime => rw [hr] at ho; cases ho
        | failed e => rw [hr] at ho; cases ho
        | done y v =>
          rw [hr] at ho
          simp only [hl i _ y v hr, hn, Bool.false_eq_true, if_false, Nat.not_lt_zero] at ho
          split at ho
          · simp only [Except.ok.injEq] at ho
            subst ho
            simp only [Except.ok.injEq] at h
            subst h
            simp
          · split at ho
            · simp only [Except.ok.injEq] at ho
              subst ho
              simp only [Except.ok.injEq] at h
              subst h
              simp
            · simp only [Except.ok.injEq] at ho
              subst ho
              exact ih (i + 1) _ rfl h
  exact key 20 0 _ rfl h

/-- A library whose first run stops for lack of budget. -/
def exBudget : Setup ℚ ℚ := { start := 1, run := fun i x => if i = 0 then .budget else .done (x / 2) (x * x), crit := fun _ x => some x, over := fun _ => false, goal := 1 / 1000 }

example : UsesUp exBudget 0 := fun _ => Or.inl rfl

example : ∃ r, ipopt exBudget = .ok r ∧ r.values = 1 ∧ r.valid = false ∧ r.message = .maxiter := by
  refine ⟨⟨1, none, some 1, false, .maxiter⟩, ?_, rfl, rfl, rfl⟩
  simp [ipopt, ipoptLoop, ipoptTurn, ipoptCall, exBudget, fromIpopt, below]

end Zfit.Wrap
