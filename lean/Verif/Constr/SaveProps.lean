import Verif.Constr.SaveModel
import Verif.Constr.Props

/-! Property C299: a Gaussian constraint that is saved and loaded is the same constraint. -/

namespace Zfit.Constr

open Zfit Matrix

/-- A list or a tuple of numbers. -/
def Arg.isSeq : Arg → Prop
  | .seq _ => True
  | _ => False

/-- A list or tuple of numbers, or a single number. -/
def Arg.isSeqOrNum : Arg → Prop
  | .seq _ => True
  | .num _ => True
  | _ => False

theorem listField_ok (a : Arg) (l : List ℝ) (h : listField a = .ok l) : a = .seq l := by
  cases a <;> simp only [listField, Except.ok.injEq, reduceCtorEq] at h
  subst h; rfl

theorem optField_ok (a : Option Arg) (l : Option (List ℝ)) (h : optField a = .ok l) : a = l.map .seq := by
  cases a with
  | none => simp only [optField, Except.ok.injEq] at h; subst h; rfl
  | some a =>
    simp only [optField] at h
    cases hl : listField a with
    | error e => rw [hl] at h; cases h
    | ok x =>
      rw [hl] at h
      simp only [Except.ok.injEq] at h
      subst h
      rw [listField_ok a x hl]; rfl

theorem contained_input (a : Arg) : a.contained.input = a.input := by cases a <;> rfl

theorem contained_numbers (a : Arg) : a.contained.numbers = a.numbers := by cases a <;> rfl

/-- C299. Whenever a Gaussian constraint can be saved, the loaded constraint has the same parameters, is accepted if and only if
the constraint was accepted, and is equal to it: the observation, the covariance and the value for all values of the
parameters are the same. -/
theorem saved_constraint (a : GaussArgs) (d : GaussDoc) (h : a.save = .ok d) :
    d.load.params = a.params ∧ ∀ n, d.load.make n = a.make n := by
  unfold GaussArgs.save at h
  split at h
  · rename_i o u s c ho hu hs hc
    cases h
    have h1 := listField_ok _ _ ho
    have h2 := optField_ok _ _ hu
    have h3 := optField_ok _ _ hs
    have h4 := optField_ok _ _ hc
    refine ⟨rfl, fun n => ?_⟩
    have e1 : a.observation.numbers = o := by rw [← contained_numbers, h1]; rfl
    have e2 : a.uncertainty.map Arg.input = (u.map Arg.seq).map Arg.input := by
      rw [← h2, Option.map_map]
      congr 1
      funext x
      exact (contained_input x).symm
    simp only [GaussArgs.make, GaussDoc.load, e1, e2, h3, h4]
    rfl
  · cases h

/-- C299. Which constraints can be saved: those whose observation and `uncertainty` are given as a number or a list of numbers, and
whose `sigma` or `cov` as a list of numbers. Missing from the full claim: all others, see below. -/
theorem saved_constraint_partial (a : GaussArgs) :
    (∃ d, a.save = .ok d) ↔ a.observation.isSeqOrNum ∧ (∀ u ∈ a.uncertainty, u.isSeqOrNum) ∧ (∀ s ∈ a.sigma, s.isSeq) ∧
      ∀ c ∈ a.cov, c.isSeq := by
  have key : ∀ x : Option Arg, (∃ l, optField x = .ok l) ↔ ∀ s ∈ x, s.isSeq := by
    intro x
    cases x with
    | none => simp [optField]
    | some s => cases s <;> simp [optField, listField, Arg.isSeq]
  have key2 : (∃ l, listField a.observation.contained = .ok l) ↔ a.observation.isSeqOrNum := by
    cases a.observation <;> simp [listField, Arg.contained, Arg.isSeqOrNum]
  have key3 : (∃ l, optField (a.uncertainty.map Arg.contained) = .ok l) ↔ ∀ u ∈ a.uncertainty, u.isSeqOrNum := by
    rw [key]
    cases a.uncertainty with
    | none => simp
    | some u => cases u <;> simp [Arg.contained, Arg.isSeqOrNum, Arg.isSeq]
  rw [← key2, ← key3, ← key, ← key]
  unfold GaussArgs.save
  constructor
  · rintro ⟨d, h⟩
    split at h
    · rename_i h1 h2 h3 h4
      exact ⟨⟨_, h1⟩, ⟨_, h2⟩, ⟨_, h3⟩, ⟨_, h4⟩⟩
    · cases h
  · rintro ⟨⟨o, h1⟩, ⟨u, h2⟩, ⟨s, h3⟩, ⟨c, h4⟩⟩
    exact ⟨⟨a.params, o, u, s, c⟩, by rw [h1, h2, h3, h4]⟩

/-- A constraint on two parameters with `sigma=[1, 2]`: it is accepted, and it can be saved. -/
noncomputable def exArgs : GaussArgs := ⟨["mu", "sigma"], .seq [0, 1], none, some (.seq [1, 2]), none⟩

example : (∃ d, exArgs.save = .ok d) ∧ ∃ g, exArgs.make 2 = .ok g := by
  refine ⟨⟨_, rfl⟩, ?_⟩
  simp [GaussArgs.make, exArgs, gaussianConstraint, preprocess, Arg.input, Arg.numbers]

/-- C299 is violated: a constraint with correlations cannot be saved, however its covariance matrix is given (`cov` or
`uncertainty`, list of lists or array). -/
theorem saved_matrix_violated (a : GaussArgs) (m : ℕ) (c : ℕ → ℕ → ℝ) (x : Arg) (hx : x.input = .mat m c)
    (h : a.cov = some x ∨ a.uncertainty = some x) : a.save = .error .valueError := by
  have hc : ∀ l, optField (some x) ≠ .ok l := by
    intro l
    cases x <;> simp [Arg.input, optField, listField] at hx ⊢
  have hc' : ∀ l, optField ((some x).map Arg.contained) ≠ .ok l := by
    intro l
    cases x <;> simp [Arg.input, optField, listField, Arg.contained] at hx ⊢
  unfold GaussArgs.save
  rcases h with h | h <;> rw [h]
  · split
    · rename_i h4; exact absurd h4 (hc _)
    · rfl
  · split
    · rename_i h2 _ _; exact absurd h2 (hc' _)
    · rfl

/-- ... although the same constraint is accepted, for example with the covariance matrix ((2, 1), (1, 2)). -/
example : ∃ g, (GaussArgs.make ⟨["a", "b"], .seq [0, 1], none, none, some (.nested 2 fun i j => if i = j then 2 else 1)⟩ 2) = .ok g := by
  simp [GaussArgs.make, gaussianConstraint, preprocess, Arg.input, Arg.numbers]

/-- C299 is violated: a constraint with a single number or an array as `sigma` cannot be saved, although the same constraint with
the list of these numbers can. -/
theorem saved_sigma_violated (params : List String) (obs : List ℝ) (x : ℝ) (l : List ℝ) :
    GaussArgs.save ⟨params, .seq obs, none, some (.num x), none⟩ = .error .valueError ∧
    GaussArgs.save ⟨params, .seq obs, none, some (.array1 l), none⟩ = .error .valueError ∧
    (∃ d, GaussArgs.save ⟨params, .seq obs, none, some (.seq [x]), none⟩ = .ok d) ∧
    (∀ n, GaussArgs.make ⟨params, .seq obs, none, some (.num x), none⟩ n =
      GaussArgs.make ⟨params, .seq obs, none, some (.seq [x]), none⟩ n) ∧
    ∀ n, GaussArgs.make ⟨params, .seq obs, none, some (.array1 l), none⟩ n =
      GaussArgs.make ⟨params, .seq obs, none, some (.seq l), none⟩ n :=
  ⟨rfl, rfl, ⟨_, rfl⟩, fun _ => rfl, fun _ => rfl⟩

end Zfit.Constr
