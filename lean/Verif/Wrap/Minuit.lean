import Verif.Wrap.Props
import Mathlib.Tactic.FieldSimp
import Mathlib.Tactic.Ring

/-! # Minuit (C97) and the constructors of the wrapped minimisers (C101, C102) -/

namespace Zfit.Wrap

section
variable {X K : Type} [Field K] [LinearOrder K]

/-! ## C97: valid results of Minuit -/

/-- C97: the result is that of the last run that finished; it is valid exactly if that run was the last one asked for, iminuit calls it
valid, the evaluator's budget is not exceeded and the criterion is met: iminuit's own one for the criterion `EDM`, otherwise the value of
the criterion being smaller than `tol * errordef`. -/
theorem minuit_valid (s : Minuit X K) (tol errordef : K) (hg : s.goal = critGoal tol errordef) (r : MinuitReport X K) (h : minuit s = .ok r) :
    ∃ j < 20, (s.migrad j = some r.from_ ∨ s.migrad j = none ∧ r.message = .maxiter ∧ ∃ j', j = j' + 1 ∧ s.migrad j' = some r.from_) ∧
      r.edm = (if s.isEdm then some r.from_.edm else s.crit j r.from_.x) ∧
      (r.valid = true ↔ s.migrad j = some r.from_ ∧ r.from_.isValid = true ∧ s.over j = false ∧
        (s.isEdm = true → r.from_.above = false) ∧ (s.isEdm = false → Smaller r.edm (tol * errordef))) := by
  obtain ⟨j, hj, h1, h2, h3⟩ := minuitLoop_spec s 20 0 none 0 r h (by simp)
  refine ⟨j, by omega, h1, h2, ?_⟩
  rw [h3]
  have : (s.met j r.from_ = true) ↔ ((s.isEdm = true → r.from_.above = false) ∧ (s.isEdm = false → Smaller r.edm (tol * errordef))) := by
    unfold Minuit.met
    cases hE : s.isEdm with
    | true => simp
    | false =>
      rw [hE] at h2
      simp only [Bool.false_eq_true, if_false] at h2 ⊢
      rw [below_iff, h2, hg]
      simp [critGoal]
  rw [this]

/-- C97, the part that holds: another criterion than `EDM` is smaller than `tol * errordef` in a valid result. Missing from the full claim:
the cases of `minuit_edm_violated`, `minuit_budget_violated`. -/
theorem minuit_criterion_partial (s : Minuit X K) (tol errordef : K) (hg : s.goal = critGoal tol errordef) (hE : s.isEdm = false)
    (r : MinuitReport X K) (h : minuit s = .ok r) (hv : r.valid = true) : Smaller r.edm (tol * errordef) := by
  obtain ⟨j, _, _, _, h3⟩ := minuit_valid s tol errordef hg r h
  exact (h3.1 hv).2.2.2.2 hE

variable [IsStrictOrderedRing K]

/-- The tolerance handed to iminuit makes its goal `tol`, without `errordef`. -/
theorem minuit_goal (tol errordef : K) (he : errordef ≠ 0) : edmGoal (minuitTol tol errordef) errordef = tol := by
  have h2 : (2 : K) / 1000 ≠ 0 := by norm_num
  unfold edmGoal minuitTol
  rw [mul_assoc, div_mul_cancel₀ _ he, mul_div_cancel₀ _ h2]

/-- iminuit reports `is_above_max_edm` exactly if the distance is above its goal. -/
def Minuit.Proper (s : Minuit X K) (tol errordef : K) : Prop :=
  ∀ i m, s.migrad i = some m → (m.above = true ↔ edmGoal (minuitTol tol errordef) errordef < m.edm)

/-- C97, the part that holds for `EDM`: the distance of a valid result is at most `tol`; at most `tol * errordef` if `errordef` is at least 1.
Missing from the full claim: the cases of `minuit_edm_violated`, `minuit_budget_violated`. -/
theorem minuit_edm_partial (s : Minuit X K) (tol errordef : K) (he : errordef ≠ 0) (ht : 0 ≤ tol) (hg : s.goal = critGoal tol errordef)
    (hs : s.Proper tol errordef) (hE : s.isEdm = true) (r : MinuitReport X K) (h : minuit s = .ok r) (hv : r.valid = true) :
    ∃ e, r.edm = some e ∧ e ≤ tol ∧ (1 ≤ errordef → e ≤ tol * errordef) := by
  obtain ⟨j, _, _, h2, h3⟩ := minuit_valid s tol errordef hg r h
  obtain ⟨hm, _, _, ha, _⟩ := h3.1 hv
  rw [hE] at h2
  have hle : r.from_.edm ≤ tol := by
    by_contra hlt
    have := (hs j r.from_ hm).2 (by rw [minuit_goal tol errordef he]; exact not_le.1 hlt)
    rw [ha hE] at this
    cases this
  exact ⟨r.from_.edm, by simpa using h2, hle, fun h1 => hle.trans (le_mul_of_one_le_right ht h1)⟩

end

/-- A likelihood fit (`errordef` 1/2) with tolerance 1/1000 whose run ends with the distance 0.0008. -/
def exMinuit : Minuit ℚ ℚ := ⟨fun _ => some ⟨1, 1, 8 / 10000, false, true, 50⟩, true, fun _ _ => none, critGoal (1 / 1000) (1 / 2), fun _ => false⟩

theorem exMinuit_proper : exMinuit.Proper (1 / 1000) (1 / 2) := by
  intro i m h
  simp only [exMinuit, Option.some.injEq] at h
  subst h
  rw [minuit_goal _ _ (by norm_num)]
  norm_num

/-- C97 fails for the criterion `EDM` and `errordef` 1/2, that is for every likelihood: a valid result may have a distance of almost `tol`,
which is not smaller than `errordef * tol`. -/
theorem minuit_edm_violated : exMinuit.Proper (1 / 1000) (1 / 2) ∧
    ∃ r, minuit exMinuit = .ok r ∧ r.valid = true ∧ r.edm = some (8 / 10000) ∧ ¬ ((8 / 10000 : ℚ) < 1 / 1000 * (1 / 2)) :=
  ⟨exMinuit_proper, ⟨⟨1, 1, 8 / 10000, false, true, 50⟩, some (8 / 10000), true, .none, 50⟩, by decide +kernel⟩

/-- C97, the part that holds: with `maxiter` evaluations per run there are at most 20 times as many. Missing from the full claim: the cases
of `minuit_edm_violated`, `minuit_budget_violated`. -/
theorem minuit_budget_partial {X K : Type} [Field K] [LinearOrder K] (s : Minuit X K) (maxiter : ℕ)
    (hn : ∀ i m, s.migrad i = some m → m.calls ≤ maxiter) (r : MinuitReport X K) (h : minuit s = .ok r) : r.used ≤ 20 * maxiter := by
  have := minuitLoop_used s maxiter hn 20 0 none 0 r h
  omega

/-- C97 fails for the budget: `maxiter` limits each run, not the minimisation; runs that use up their 100 evaluations without converging
are repeated 20 times. -/
theorem minuit_budget_violated : ∃ r,
    minuit { exMinuit with migrad := fun _ => some ⟨1, 1, 1, true, false, 100⟩ } = .ok r ∧ r.used = 20 * 100 :=
  ⟨⟨⟨1, 1, 1, true, false, 100⟩, some 1, false, .none, 2000⟩, by decide +kernel⟩

/-! ## C101: the minimiser that was asked for -/

/-- C101 fails for NLopt: the algorithm is the same for every minimiser. -/
theorem nlopt_algorithm_violated (asked : String) : nloptAlgorithm asked = "LD_LBFGS" := rfl

/-- C101, an instance. -/
theorem nlopt_cobyla_violated : nloptAlgorithm "LN_COBYLA" ≠ "LN_COBYLA" := by decide

/-- C101, the part that holds: exactly the choices that make sense together and are not numerical gradients are accepted, and they are
handed on: no choice (or `False`) means zfit's derivative, `True` the library's. Missing from the full claim: the cases of
`scipy_gradient_violated`, `nlopt_algorithm_violated`, `nlopt_cobyla_violated`. -/
theorem scipy_derivatives_partial (validG : Grad → Bool) (validH : Hess → Bool) (g : Grad) (h : Hess)
    (hg : g ≠ .bool true ∧ g ≠ .twoPoint ∧ g ≠ .threePoint) (hh : h ≠ .strategyInstance) (hv : g = .notSupported ∨ validG g = true)
    (hw : h = .notSupported ∨ validH h = true) :
    ∃ g' h', scipyDerivatives validG validH g h = .ok (g', h') ∧
      (g' = none ↔ g = .notSupported) ∧ (h' = none ↔ h = .notSupported) ∧
      (g = .none ∨ g = .bool false ∨ g = .zfit → g' = some .zfit) ∧ (h = .none ∨ h = .bool false ∨ h = .zfit → h' = some .zfit) ∧
      (h = .bool true → h' = some .none) ∧ (h = .twoPoint ∨ h = .threePoint ∨ h = .strategyClass → h' = some h) := by
  have h1 : ¬ (((g = .bool true ∨ g = .twoPoint ∨ g = .threePoint) ∧ ¬ (h = .strategyInstance ∨ h = .notSupported))) := by
    rintro ⟨a | a | a, _⟩
    · exact hg.1 a
    · exact hg.2.1 a
    · exact hg.2.2 a
  have h2 : ¬ (g ≠ .notSupported ∧ validG g = false) := by
    rintro ⟨a, b⟩
    rcases hv with hv | hv
    · exact a hv
    · rw [hv] at b; cases b
  have h3 : ¬ (h ≠ .notSupported ∧ validH h = false) := by
    rintro ⟨a, b⟩
    rcases hw with hw | hw
    · exact a hw
    · rw [hw] at b; cases b
  unfold scipyDerivatives
  rw [if_neg h1, if_neg h2, if_neg h3, if_neg hh]
  refine ⟨_, _, rfl, ?_, ?_, ?_, ?_, ?_, ?_⟩
  · split_ifs <;> simp_all
  · split_ifs <;> simp_all
  · rintro (rfl | rfl | rfl) <;> simp
  · rintro (rfl | rfl | rfl) <;> simp
  · rintro rfl; simp
  · rintro (rfl | rfl | rfl) <;> simp

/-- C101: without a hessian, a numerical gradient is accepted and handed on. Missing from the full claim: the cases of
`scipy_gradient_violated`, `nlopt_algorithm_violated`, `nlopt_cobyla_violated`. -/
theorem scipy_gradient_partial (validG : Grad → Bool) (validH : Hess → Bool) (g : Grad) (hg : g = .twoPoint ∨ g = .threePoint ∨ g = .bool true)
    (hv : validG g = true) : scipyDerivatives validG validH g .notSupported = .ok (some (if g = .bool true then .none else g), none) := by
  rcases hg with rfl | rfl | rfl <;> simp [scipyDerivatives, hv]

/-- C101 fails for minimisers with a hessian: a numerical gradient is refused whatever the hessian, also with the quasi-Newton strategies
the message asks for, since the first check wants an instance and a later one a class. -/
theorem scipy_gradient_violated (validG : Grad → Bool) (validH : Hess → Bool) (g : Grad) (h : Hess)
    (hg : g = .twoPoint ∨ g = .threePoint ∨ g = .bool true) (hh : h ≠ .notSupported) : scipyDerivatives validG validH g h = .error .valueError := by
  unfold scipyDerivatives
  by_cases hi : h = .strategyInstance
  · subst hi
    split_ifs <;> first | rfl | simp_all
  · rw [if_pos]
    exact ⟨by tauto, by tauto⟩

example : scipyDerivatives (fun _ => true) (fun _ => true) .none .strategyClass = .ok (some .zfit, some .strategyClass) := by decide

/-! ## C102: the user's options are left alone -/

/-- C102, the part that holds: the constructors refuse exactly what the interface sets itself, a wrong mode or the old order of arguments.
Missing from the full claim: the cases of `ipopt_options_violated`, `minuit_options_violated`, `minuit_unknown_violated`. -/
theorem ipopt_init_partial (options : Options) (maxcor : Option ℤ) :
    (∃ o, (ipoptInit options maxcor).2 = .ok o) ↔ ∀ e ∈ options, e.1 ∉
      ["tol", "max_iter", "limited_memory_update_type", "limited_memory_max_history", "hessian_approximation"] := by
  show _ ↔ ∀ e ∈ options, e.1 ∉ ipoptForbidden
  unfold ipoptInit
  split_ifs with h
  · simp only [List.any_eq_true, List.contains_iff_mem] at h
    obtain ⟨e, he, hm⟩ := h
    constructor
    · rintro ⟨o, ho⟩; cases ho
    · intro hall; exact absurd hm (hall e he)
  · simp only [List.any_eq_true, List.contains_iff_mem, not_exists, not_and] at h
    exact ⟨fun _ => h, fun _ => ⟨_, rfl⟩⟩

/-- C102, the part that holds for Minuit. Missing from the full claim: the cases of `ipopt_options_violated`, `minuit_options_violated`,
`minuit_unknown_violated`. -/
theorem minuit_init_partial (options : Options) (a : MinuitArgs) :
    (∃ o, (minuitInit options a).2 = .ok o) ↔ a.modeFloat = false ∧ a.tolInt = false ∧ (∀ m, a.mode = some m → m = 0 ∨ m = 1 ∨ m = 2) := by
  unfold minuitInit
  cases a.modeFloat <;> cases a.tolInt <;> simp
  cases hm : a.mode with
  | none => simp
  | some m =>
    simp only [Option.getD_some, Option.some.injEq, forall_eq']
    by_cases h : 0 ≤ m ∧ m ≤ 2
    · rw [if_pos h]; exact ⟨fun _ => by omega, fun _ => ⟨_, rfl⟩⟩
    · rw [if_neg h]
      constructor
      · rintro ⟨o, ho⟩; cases ho
      · intro h'; exact absurd (by omega) h

theorem any_set (o : Options) (k : String) (v : Option ℤ) : (o.set k v).any (fun e => e.1 == k) = true := by
  unfold Options.set
  split_ifs with h
  · rw [List.any_map]
    rw [List.any_eq_true] at h ⊢
    obtain ⟨e, he, hk⟩ := h
    refine ⟨e, he, ?_⟩
    have : e.1 = k := by simpa using hk
    simp [this]
  · simp

/-- C102 fails for Ipyopt: the user's dictionary is changed, so that making a second minimiser with the same dictionary always fails. -/
theorem ipopt_options_violated (options : Options) (maxcor maxcor' : Option ℤ) :
    (ipoptInit (ipoptInit options maxcor).1 maxcor').2 = .error .valueError := by
  unfold ipoptInit
  split_ifs with h1 h2
  · rfl
  · rfl
  · exfalso
    apply h2
    have := any_set options "limited_memory_max_history" maxcor
    rw [List.any_eq_true] at this ⊢
    obtain ⟨e, he, hk⟩ := this
    refine ⟨e, he, ?_⟩
    have hk' : e.1 = "limited_memory_max_history" := by simpa using hk
    rw [hk']
    decide

example : (ipoptInit [("mu_init", some 1)] none).2 = .ok [("mu_init", some 1), ("limited_memory_max_history", none)] := by decide

/-- C102 fails for Minuit: the user's dictionary gets two entries more; it then no longer suits another minimiser. -/
theorem minuit_options_violated : (minuitInit [] ⟨none, false, false, none⟩).1 = [("ncall", some 0), ("strategy", some 1)] := by decide

/-- C102 fails for Minuit: an option that is not known is accepted by the constructor and refused when minimising. -/
theorem minuit_unknown_violated : ∃ o, (minuitInit [("maxfun", some 3)] ⟨none, false, false, none⟩).2 = .ok o ∧
    minuitMinimizeOptions o = .error .valueError := ⟨_, rfl, by decide⟩

end Zfit.Wrap
