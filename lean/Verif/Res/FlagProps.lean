import Verif.Res.FlagModel
import Mathlib.Algebra.Order.Field.Rat
import Mathlib.Tactic.Linarith

/-! Properties of the flags of fit results (C52). -/

namespace Zfit.Res

open Zfit Zfit.Par

theorem truthy_and (a b : Option Bool) : truthy (pyAnd a b) = (truthy a && truthy b) := by
  unfold pyAnd
  cases h : truthy a <;> simp [h]

theorem truthy_notMaxiter (v ev : Option Bool) : truthy (notMaxiter v ev) = (truthy v && !truthy ev) := by
  cases ev with
  | none => simp [notMaxiter, truthy]
  | some b => simp only [notMaxiter, truthy_and]; rfl

/-- What makes a constructed result valid. -/
theorem construct_valid (s : Store) (params : List (Nat × Rat)) (v c : Option Bool) :
    truthy (construct s params v c).isValid = true ↔
      truthy v = true ∧ (truthy c = true ∨ c = none) ∧ ∀ iv ∈ params, atLimitNow s iv.1 = false := by
  unfold Flags.isValid construct
  simp only [truthy_and]
  by_cases h : params.any (fun iv => atLimitNow s iv.1) = true
  · rw [h]
    simp only [if_true, truthy, Bool.false_and, Bool.false_eq_true, false_iff]
    rintro ⟨_, _, h3⟩
    obtain ⟨iv, hiv, ht⟩ := List.any_eq_true.1 h
    rw [h3 iv hiv] at ht
    cases ht
  · rw [Bool.not_eq_true] at h
    rw [h]
    have h3 : ∀ iv ∈ params, atLimitNow s iv.1 = false := by
      intro iv hiv
      have := List.any_eq_false.1 h iv hiv
      simpa using this
    simp only [Bool.false_eq_true, if_false, Bool.and_eq_true]
    have h4 : truthy (some (!false)) = true := rfl
    cases c with
    | none =>
      cases hv : truthy v
      · simp
      · simp [truthy]
        exact fun a b hab => h3 (a, b) hab
    | some b =>
      simp [truthy]
      exact fun _ _ a b hab => h3 (a, b) hab

/-- C52: a result that says `valid` has converged (it says so itself), none of its parameters was at a limit when it was
made, and the evaluation budget was not exceeded, whichever constructor made it and with whatever arguments. Missing from the full claim:
the cases of `valid_at_limit_violated`, `invalid_inside_violated`. -/
theorem valid_result_partial (s : Store) (params : List (Nat × Rat)) (m : Make) (f : Flags) (h : make s params m = .ok f)
    (hv : truthy f.isValid = true) :
    truthy f.converged = true ∧ (∀ iv ∈ params, atLimitNow s iv.1 = false) ∧ m.budgetExceeded = false := by
  have hc : truthy f.converged = true := by
    unfold Flags.isValid at hv
    rw [truthy_and, Bool.and_eq_true] at hv
    exact hv.2
  refine ⟨hc, ?_⟩
  cases m with
  | plain v c =>
    cases h
    exact ⟨((construct_valid ..).1 hv).2.2, rfl⟩
  | ipopt v c ev =>
    cases h
    obtain ⟨h1, _, h3⟩ := (construct_valid ..).1 hv
    rw [truthy_notMaxiter, Bool.and_eq_true] at h1
    exact ⟨h3, (by simpa using h1.2 : truthy ev = false)⟩
  | minuit known e mv v c ev =>
    simp only [make] at h
    cases known with
    | false => cases h
    | true =>
      cases h
      obtain ⟨h1, _, h3⟩ := (construct_valid ..).1 hv
      rw [truthy_notMaxiter, Bool.and_eq_true] at h1
      exact ⟨h3, (by simpa using h1.2 : truthy ev = false)⟩
  | scipy su v ev =>
    cases h
    obtain ⟨h1, _, h3⟩ := (construct_valid ..).1 hv
    rw [truthy_notMaxiter, Bool.and_eq_true] at h1
    exact ⟨h3, (by simpa using h1.2 : truthy ev = false)⟩
  | nlopt st v c ev =>
    simp only [make] at h
    split at h
    · cases h
      obtain ⟨h1, _, h3⟩ := (construct_valid ..).1 hv
      rw [truthy_notMaxiter, Bool.and_eq_true] at h1
      exact ⟨h3, (by simpa using h1.2 : truthy ev = false)⟩
    · cases h

/-- C52: what the library says counts: a valid result from Minuit means that Minuit says valid and is not above its
maximal EDM; one from NLopt that the status is a success (1 to 4); one from scipy that `success`, if present, is true; and
nobody who called the constructor said that it is not valid or has not converged. -/
theorem valid_result_library (s : Store) (params : List (Nat × Rat)) (f : Flags) (hv : truthy f.isValid = true) :
    (∀ known e mv v c ev, make s params (.minuit known e mv v c ev) = .ok f →
      mv = true ∧ e = false ∧ v ≠ some false ∧ c ≠ some false) ∧
    (∀ st v c ev, make s params (.nlopt st v c ev) = .ok f → (1 ≤ st ∧ st ≤ 4) ∧ v = some true ∧ c ≠ some false) ∧
    (∀ su v ev, make s params (.scipy su v ev) = .ok f → su ≠ some false ∧ v = some true) ∧
    (∀ v c ev, make s params (.ipopt v c ev) = .ok f → v = some true ∧ c ≠ some false) := by
  refine ⟨?_, ?_, ?_, ?_⟩
  · intro known e mv v c ev h
    simp only [make] at h
    cases known with
    | false => cases h
    | true =>
      cases h
      obtain ⟨h1, h2, _⟩ := (construct_valid ..).1 hv
      rw [truthy_notMaxiter, Bool.and_eq_true] at h1
      rcases v with _ | _ | _ <;> rcases c with _ | _ | _ <;> cases mv <;> cases e <;>
        simp_all [truthy, pyAnd]
  · intro st v c ev h
    simp only [make] at h
    split at h
    · cases h
      obtain ⟨h1, h2, _⟩ := (construct_valid ..).1 hv
      rw [truthy_notMaxiter, Bool.and_eq_true, truthy_and, Bool.and_eq_true] at h1
      have h3 := h1.1.2
      simp only [truthy, Bool.and_eq_true, decide_eq_true_eq] at h3
      refine ⟨h3.1, ?_, h3.2⟩
      have := h1.1.1
      rcases v with _ | _ | _ <;> simp_all [truthy]
    · cases h
  · intro su v ev h
    cases h
    obtain ⟨h1, h2, _⟩ := (construct_valid ..).1 hv
    rw [truthy_notMaxiter, Bool.and_eq_true] at h1
    rcases v with _ | _ | _ <;> rcases su with _ | _ | _ <;> simp_all [truthy]
  · intro v c ev h
    cases h
    obtain ⟨h1, h2, _⟩ := (construct_valid ..).1 hv
    rw [truthy_notMaxiter, Bool.and_eq_true] at h1
    rcases v with _ | _ | _ <;> rcases c with _ | _ | _ <;> simp_all [truthy, pyAnd]

/-- C52: and conversely, a result constructed as valid, of a converged (or not specified) minimisation, with no parameter
at a limit, is valid. -/
theorem valid_result_converse (s : Store) (params : List (Nat × Rat)) (c : Option Bool) (hc : c ≠ some false)
    (hl : ∀ iv ∈ params, atLimitNow s iv.1 = false) : truthy (construct s params (some true) c).isValid = true := by
  rw [construct_valid]
  refine ⟨rfl, ?_, hl⟩
  rcases c with _ | _ | _
  · exact Or.inr rfl
  · exact (hc rfl).elim
  · exact Or.inl rfl

/-- C52: and conversely for what a library reports: with no parameter at a limit and the budget kept, a success is valid. -/
theorem valid_library_converse (s : Store) (params : List (Nat × Rat)) (hl : ∀ iv ∈ params, atLimitNow s iv.1 = false)
    (ev : Option Bool) (hev : truthy ev = false) :
    (∀ v c, v ≠ some false → c ≠ some false →
      ∃ f, make s params (.minuit true false true v c ev) = .ok f ∧ truthy f.isValid = true) ∧
    (∀ st c, 1 ≤ st → st ≤ 4 → c ≠ some false → ∃ f, make s params (.nlopt st (some true) c ev) = .ok f ∧ truthy f.isValid = true) ∧
    (∀ su, su ≠ some false → ∃ f, make s params (.scipy su (some true) ev) = .ok f ∧ truthy f.isValid = true) ∧
    (∀ c, c ≠ some false → ∃ f, make s params (.ipopt (some true) c ev) = .ok f ∧ truthy f.isValid = true) := by
  refine ⟨?_, ?_, ?_, ?_⟩
  · intro v c hv hc
    refine ⟨_, rfl, (construct_valid ..).2 ⟨?_, ?_, hl⟩⟩
    · rw [truthy_notMaxiter, hev]
      rcases v with _ | _ | _ <;> simp_all [truthy, pyAnd]
    · rcases c with _ | _ | _ <;> simp_all [truthy, pyAnd]
  · intro st c h1 h4 hc
    have hst : st ∈ nloptStatuses := by
      have : st = 1 ∨ st = 2 ∨ st = 3 ∨ st = 4 := by omega
      rcases this with rfl | rfl | rfl | rfl <;> decide
    refine ⟨_, (by simp only [make, hst, if_true]; rfl), (construct_valid ..).2 ⟨?_, ?_, hl⟩⟩
    · rw [truthy_notMaxiter, hev, truthy_and]
      simp [truthy, h1, h4, hc]
    · simp [truthy, h1, h4, hc]
  · intro su hsu
    refine ⟨_, rfl, (construct_valid ..).2 ⟨?_, ?_, hl⟩⟩
    · rw [truthy_notMaxiter, hev]
      simp [truthy]
    · rcases su with _ | _ | _ <;> simp_all [truthy]
  · intro c hc
    refine ⟨_, rfl, (construct_valid ..).2 ⟨?_, ?_, hl⟩⟩
    · rw [truthy_notMaxiter, hev]
      rcases c with _ | _ | _ <;> simp_all [truthy, pyAnd]
    · rcases c with _ | _ | _ <;> simp_all [truthy]

/-- C52: once a new minimum was found the result is never valid again, whatever is done before and after; as long as none
was found `valid` does not change. -/
theorem new_minimum_for_ever (f : Flags) (h : List Use) :
    (Use.errors true ∈ h → truthy (h.foldl Flags.use f).isValid = false) ∧
    (Use.errors true ∉ h → h.foldl Flags.use f = f) := by
  have stays : ∀ (h : List Use) (f : Flags), f.valid = some false → (h.foldl Flags.use f).valid = some false := by
    intro h
    induction h with
    | nil => intro f hf; exact hf
    | cons u h ih =>
      intro f hf
      refine ih _ ?_
      rcases u with ⟨_ | _⟩ | _
      · exact hf
      · rfl
      · exact hf
  constructor
  · intro hm
    have : (h.foldl Flags.use f).valid = some false := by
      induction h generalizing f with
      | nil => cases hm
      | cons u h ih =>
        rcases List.mem_cons.1 hm with rfl | hm
        · exact stays h _ rfl
        · exact ih _ hm
    unfold Flags.isValid
    rw [truthy_and, truthy_and, this]
    rfl
  · intro hm
    induction h generalizing f with
    | nil => rfl
    | cons u h ih =>
      rw [List.mem_cons, not_or] at hm
      have : f.use u = f := by
        rcases u with ⟨_ | _⟩ | _
        · rfl
        · exact (hm.1 rfl).elim
        · rfl
      rw [List.foldl_cons, this]
      exact ih f hm.2

/-- Parameter 0 in [0, 10] with value 5, the others without limits. -/
def exStore : Store := fun i => if i = 0 then ⟨some 0, some 10, 5⟩ else ⟨none, none, 1⟩

/-- A valid result from Minuit; one over budget; one from NLopt with a status that is not in the table. -/
example : (make exStore [(0, 4), (1, 2)] (.minuit true false true none none (some false))).map
      (fun f => truthy f.isValid) = .ok true
    ∧ (make exStore [(0, 4), (1, 2)] (.minuit true false true none none (some true))).map
      (fun f => truthy f.isValid) = .ok false
    ∧ make exStore [(0, 4)] (.nlopt 0 (some true) none none) = .error .keyError := by decide +kernel

/-- C52 fails for the fitted values: `at_limit` is asked of the parameters as they are, so a result whose fitted value is
exactly the upper limit of parameter 0 is valid if the parameter was moved meanwhile. -/
theorem valid_at_limit_violated :
    (make exStore [(0, 10)] (.plain (some true) (some true))).map (fun f => truthy f.isValid) = .ok true
    ∧ (exStore 0).atLimit 10 false = true := by decide +kernel

/-- … and the other way round: a result with fitted values well inside is invalid if the parameter happens to be at its
limit when the result is made. -/
theorem invalid_inside_violated :
    (make (exStore.put 0 ⟨some 0, some 10, 10⟩) [(0, 5)] (.plain (some true) (some true))).map
      (fun f => truthy f.isValid) = .ok false
    ∧ (exStore 0).atLimit 5 false = false := by decide +kernel

end Zfit.Res
