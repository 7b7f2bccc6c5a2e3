import Verif.Param.Lemmas
import Mathlib.Data.List.Nodup

/-!
# Properties of parameter values (C10, C11, C12, C13)
-/

namespace Zfit.Par

open Zfit

/-! ## C10 -/

/-- C10: after any history of (permanent and temporary, checked and unchecked) settings, randomisations and changes of
the limits, `value()` is within the limits the parameter then has, whenever these are ordered. -/
theorem value_within_limits (p : Param) (ops : List Op)
    (hord : ∀ l u, (history ops p).lower = some l → (history ops p).upper = some u → l ≤ u) :
    Within (history ops p).lower (history ops p).upper (history ops p).value := by
  rw [value_eq_clip]
  exact clip_within hord _

/-- A case meeting the hypothesis: an unchecked assignment far outside, limits moved, a temporary setting. -/
example :
    let p : Param := history [.assign 100, .setUpper (some 7), .withValue 3 [.assign 50], .assign 9]
      ⟨some 0, some 10, 5⟩
    p.lower = some 0 ∧ p.upper = some 7 ∧ p.value = 7 := by decide +kernel

/-- Without unchecked assignments and changes of limits, even the stored number never goes beyond a limit by the
tolerance or more: only `assign` can put it there. -/
theorem stored_within_tolerance (p : Param) (ops : List Op) (hc : Op.checked.all ops)
    (hpr : Proper p.lower p.upper) (h0 : ¬ Beyond p.lower p.upper p.stored) :
    (history ops p).lower = p.lower ∧ (history ops p).upper = p.upper ∧
      ¬ Beyond p.lower p.upper (history ops p).stored :=
  history_tame hpr ops p hc ⟨rfl, rfl, h0⟩

example : Op.checked.all [.setValue 3, .withValue 11 [.setValue 2], .withValue 4 [.setValue 20, .setValue 1]] ∧
    Proper (some 0) (some 10) ∧ (history [.setValue 3, .withValue 11 [.setValue 2], .withValue 4 [.setValue 20,
      .setValue 1]] ⟨some 0, some 10, 5⟩).stored = 3 := by
  refine ⟨by simp [Op.checked.all, Op.checked], ?_, by decide +kernel⟩
  intro l u hl hu
  cases hl
  cases hu
  norm_num

/-- The hypothesis on the order is needed: with the lower above the upper limit `value()` exceeds the upper one. -/
theorem reversed_limits_violated :
    let p : Param := history [.setLower (some 8)] ⟨some 0, some 5, 3⟩
    p.upper = some 5 ∧ p.value = 8 := by decide +kernel

/-! ## C11 -/

/-- C11: `set_value(v)` raises `ValueError` and leaves the parameter as it was exactly when `v` is beyond a limit by at
least the tolerance; else it succeeds, keeps the limits, and `value()` is `v` clipped to them. -/
theorem set_value_decision (p : Param) (hpr : Proper p.lower p.upper) (v : Rat) :
    (Beyond p.lower p.upper v → (Op.setValue v).run p = (p, some .valueError)) ∧
    (¬ Beyond p.lower p.upper v → ∃ q, (Op.setValue v).run p = (q, none) ∧ q.lower = p.lower ∧ q.upper = p.upper ∧
      Clipped p.lower p.upper v q.value) := by
  unfold Op.run
  constructor
  · intro hb
    rcases setValue_cases hpr v with ⟨_, he⟩ | ⟨hn, _⟩
    · rw [he]
    · exact (hn hb).elim
  · intro hb
    rcases setValue_cases hpr v with ⟨hb', _⟩ | ⟨_, he⟩
    · exact (hb hb').elim
    · rw [he]
      refine ⟨p.assign v, rfl, rfl, rfl, ?_⟩
      rw [assign_value]
      exact clip_clipped hpr v

/-- In particular every value within the limits, the limits included, is accepted and read back exactly. -/
theorem set_value_within (p : Param) (hpr : Proper p.lower p.upper) (v : Rat) (hv : Within p.lower p.upper v) :
    ∃ q, (Op.setValue v).run p = (q, none) ∧ q.value = v := by
  obtain ⟨q, h1, _, _, h4⟩ := (set_value_decision p hpr v).2 (within_not_beyond hpr hv)
  exact ⟨q, h1, h4.1 hv⟩

/-- A parameter is created exactly from a value that `set_value` would accept. -/
theorem make_decision (value : Rat) (lower upper : Option Rat) (hpr : Proper lower upper) :
    (Param.make value lower upper = .error .valueError ↔ Beyond lower upper value) ∧
    (¬ Beyond lower upper value → Param.make value lower upper = .ok ⟨lower, upper, value⟩) := by
  unfold Param.make
  rcases setValue_cases (p := ⟨lower, upper, value⟩) hpr value with ⟨hb, he⟩ | ⟨hn, he⟩
  · exact ⟨⟨fun _ => hb, fun _ => he⟩, fun h => (h hb).elim⟩
  · refine ⟨⟨fun h => ?_, fun h => (hn h).elim⟩, fun _ => he⟩
    rw [he] at h
    cases h

/-- Cases: on the limit, over it by less than the tolerance (clipped), over it by exactly the tolerance (rejected). -/
example :
    (Op.setValue 10).run ⟨some 0, some 10, 5⟩ = (⟨some 0, some 10, 10⟩, none) ∧
    (Op.setValue (10 + 1 / 20000000)).run ⟨some 0, some 10, 5⟩ = (⟨some 0, some 10, 10 + 1 / 20000000⟩, none) ∧
    (⟨some 0, some 10, 10 + 1 / 20000000⟩ : Param).value = 10 ∧
    (Op.setValue (10 + 1 / 10000000)).run ⟨some 0, some 10, 5⟩ = (⟨some 0, some 10, 5⟩, some .valueError) ∧
    (Op.setValue (-3)).run ⟨none, some 10, 5⟩ = (⟨none, some 10, -3⟩, none) := by decide +kernel

/-- Proper limits are needed: with equal limits the tolerance is zero and every value is rejected, so that such a
parameter cannot be created. -/
theorem equal_limits_reject_violated (l v : Rat) : Param.make v (some l) (some l) = .error .valueError := by
  unfold Param.make Param.setValue
  rw [if_pos]
  simp [Param.hasLimits, Param.atLimit, Param.tol]
  exact le_total v l

/-- In graph mode the check is strict: acceptance in graph mode implies acceptance in eager mode, but the limits
themselves, accepted eagerly, are rejected. -/
theorem graph_mode_stricter (p : Param) (hpr : Proper p.lower p.upper) (v : Rat) :
    (∀ q, p.setValueGraph v = .ok q → p.setValue v = .ok q) ∧
    ((p.lower = some v ∨ p.upper = some v) →
      p.setValueGraph v = .error .invalidArgument ∧ ∃ q, p.setValue v = .ok q) := by
  constructor
  · intro q hq
    unfold Param.setValueGraph at hq
    rw [ite_eq_iff] at hq
    rcases hq with ⟨_, hq⟩ | ⟨hc, hq⟩
    · cases hq
    · cases hq
      rcases setValue_cases hpr v with ⟨hb, _⟩ | ⟨_, he⟩
      · exfalso
        refine within_not_beyond hpr ⟨?_, ?_⟩ hb
        · intro l hl
          by_contra hlt
          apply hc
          simp only [Param.hasLimits, hl, Option.isSome_some, Bool.true_or, Bool.true_and, Bool.or_eq_true,
            decide_eq_true_eq]
          left
          linarith
        · intro u hu
          by_contra hlt
          apply hc
          simp only [Param.hasLimits, hu, Option.isSome_some, Bool.or_true, Bool.true_and, Bool.or_eq_true,
            decide_eq_true_eq]
          right
          linarith
      · exact he
  · intro h
    constructor
    · unfold Param.setValueGraph
      rcases h with h | h
      · rw [if_pos]
        simp [Param.hasLimits, h]
      · rw [if_pos]
        simp [Param.hasLimits, h]
    · rcases setValue_cases hpr v with ⟨hb, _⟩ | ⟨_, he⟩
      · exfalso
        refine within_not_beyond hpr ?_ hb
        rcases h with h | h
        · refine ⟨?_, fun u hu => le_of_lt (hpr v u h hu)⟩
          intro l hl
          rw [h] at hl
          cases hl
          exact le_refl _
        · refine ⟨fun l hl => le_of_lt (hpr l v hl h), ?_⟩
          intro u hu
          rw [h] at hu
          cases hu
          exact le_refl _
      · exact ⟨_, he⟩

/-! ## C12 -/

/-- C12: a block `with set_values(…): body` that is entered gives every parameter it names the value it had before, and
ends as its body ended — whatever the body does: nested blocks, permanent settings, unchecked assignments, exceptions. -/
theorem with_block_restores (s : Store) (hp : ProperStore s) (b : List (Nat × Rat)) (hb : Acceptable s b)
    (body : Prog) :
    (∀ i ∈ b.map (·.1), ((run (.withSet b body) s).1 i).value = (s i).value) ∧
    (run (.withSet b body) s).2 = (run body (setAll s b).1).2 := by
  have hin : (setAll s b).2 = none := by rw [setAll_acceptable hp hb]
  obtain ⟨h1, h2, _⟩ := withSet_run hp b body hin
  exact ⟨h2, h1⟩

/-- C12: a program that only sets parameters temporarily — nested and sequenced in any way, raising and handling
exceptions anywhere — leaves the value of every parameter as it was. -/
theorem temporary_settings_undone (prog : Prog) (s : Store) (hp : ProperStore s) (ht : Temporary s prog) :
    ∀ i, ((run prog s).1 i).value = (s i).value := by
  have key : ∀ (prog : Prog) (s0 s : Store), ProperStore s0 → Temporary s0 prog → SameLimits s0 s →
      ∀ i, ((run prog s).1 i).value = (s i).value := by
    intro prog
    induction prog with
    | raise => intros; rfl
    | skip => intros; rfl
    | set b => intro _ _ _ h; exact h.elim
    | assign b => intro _ _ _ h; exact h.elim
    | seq a b iha ihb =>
      intro s0 s hp ht hs i
      have h1 := iha s0 s hp ht.1 hs i
      have h2 := run_same a s
      show ((andThen (run a s) (run b)).1 i).value = _
      rcases hr : run a s with ⟨s', _ | e⟩
      · rw [hr] at h1 h2
        exact (ihb s0 s' hp ht.2 (hs.trans h2) i).trans h1
      · rw [hr] at h1
        exact h1
    | tryExcept a b iha ihb =>
      intro s0 s hp ht hs i
      have h1 := iha s0 s hp ht.1 hs i
      have h2 := run_same a s
      show ((orElse (run a s) (run b)).1 i).value = _
      rcases hr : run a s with ⟨s', _ | e⟩
      · rw [hr] at h1
        exact h1
      · rw [hr] at h1 h2
        exact (ihb s0 s' hp ht.2 (hs.trans h2) i).trans h1
    | withSet b body ih =>
      intro s0 s hp ht hs i
      by_cases hin : (setAll s b).2 = none
      · obtain ⟨_, h2, h3⟩ := withSet_run (hs.proper hp) b body hin
        by_cases hi : i ∈ b.map (·.1)
        · exact h2 i hi
        · rw [h3 i hi, ih s0 _ hp ht.2 (hs.trans (setAll_same s b)) i, setAll_untouched _ _ _ hi]
      · rcases ht.1 with hlen | hacc
        · rcases b with _ | ⟨⟨j, v⟩, _ | ⟨x, b⟩⟩
          · exact (hin rfl).elim
          · show ((withBlock s [(j, v)] (run body)).1 i).value = _
            unfold withBlock
            rcases h : (s j).setValue v with e | q
            · simp [setAll, h]
            · exact (hin (by simp [setAll, h])).elim
          · simp at hlen
        · rw [setAll_acceptable (hs.proper hp) (hs.acceptable hacc)] at hin
          exact (hin rfl).elim
  exact key prog s s hp ht (SameLimits.refl s)

/-- The store of the examples: parameter 0 in [0, 10], all others unlimited. -/
def exStore : Store := fun i => if i = 0 then ⟨some 0, some 10, 5⟩ else ⟨none, none, 1⟩

theorem exStore_proper : ProperStore exStore := by
  intro i l u hl hu
  unfold exStore at hl hu
  split at hl
  · simp_all
    subst hl hu
    norm_num
  · cases hl

/-- A case meeting the hypotheses: nested blocks, an exception inside, a rejected value, a handler. -/
example :
    let prog : Prog := .tryExcept (.withSet [(0, 3), (1, 7)] (.seq (.withSet [(0, 4)] .skip) (.withSet [(0, 99)] .raise)))
      (.withSet [(1, 2)] .skip)
    Temporary exStore prog ∧ (run prog exStore).2 = none := by
  refine ⟨⟨⟨Or.inr ?_, ⟨Or.inl (by decide), trivial⟩, ⟨Or.inl (by decide), trivial⟩⟩, Or.inl (by decide), trivial⟩,
    by decide +kernel⟩
  intro iv hiv
  simp only [List.mem_cons, List.not_mem_nil, or_false] at hiv
  rcases hiv with rfl | rfl
  · apply within_not_beyond (exStore_proper 0)
    constructor
    · intro l hl
      simp [exStore] at hl
      subst hl
      norm_num
    · intro u hu
      simp [exStore] at hu
      subst hu
      norm_num
  · rintro (⟨l, hl, _⟩ | ⟨u, hu, _⟩)
    · simp [exStore] at hl
    · simp [exStore] at hu

/-- C12 fails for `with set_values([a, b], …)` when the value of a later parameter is rejected: the block is not entered
and the parameters before it keep their new values. -/
theorem with_block_entry_leaks_violated :
    let r := run (.withSet [(1, 7), (0, 99)] .skip) exStore
    r.2 = some .valueError ∧ (exStore 1).value = 1 ∧ (r.1 1).value = 7 := by decide +kernel

/-- Restoring goes through the checks: if the body moves a limit past the old value, leaving the block raises and the
value is not restored. -/
theorem restore_after_limit_change_violated :
    let r := (Op.withValue 2 [.setUpper (some 3)]).run ⟨some 0, some 10, 5⟩
    r.2 = some .valueError ∧ r.1.value = 2 := by decide +kernel

/-! ## C13 -/

/-- C13, proved part: only the named parameters can change; if all values are acceptable nothing is raised and every
parameter takes its clipped value; else `ValueError` is raised, and exactly the assignments before the first rejected
one have been made.  Missing from the full claim: that nothing changes when it raises, which is false (see below). -/
theorem set_values_exact_partial (s : Store) (hp : ProperStore s) (b : List (Nat × Rat)) :
    (∀ j, j ∉ b.map (·.1) → (setAll s b).1 j = s j) ∧
    (Acceptable s b → (b.map (·.1)).Nodup → (setAll s b).2 = none ∧
      ∀ iv ∈ b, Clipped (s iv.1).lower (s iv.1).upper iv.2 ((setAll s b).1 iv.1).value) ∧
    (∀ pre iv post, b = pre ++ iv :: post → Acceptable s pre → Beyond (s iv.1).lower (s iv.1).upper iv.2 →
      (setAll s b).2 = some .valueError ∧ (setAll s b).1 = (setAll s pre).1) := by
  refine ⟨fun j hj => setAll_untouched s b j hj, ?_, ?_⟩
  · intro ha hn
    rw [setAll_acceptable hp ha]
    refine ⟨rfl, ?_⟩
    intro iv hiv
    simp only
    rw [assignAll_const (v := iv.2) (List.mem_map_of_mem hiv)]
    · rw [assign_value]
      exact clip_clipped (hp _) _
    · intro iv' hiv' he
      have := List.inj_on_of_nodup_map hn hiv' hiv he
      rw [this]
  · rintro pre ⟨i, v⟩ post rfl ha hb
    rw [setAll_reject hp ha hb, setAll_acceptable hp ha]
    exact ⟨rfl, rfl⟩

/-- `set_values` raises exactly if some value is not acceptable. -/
theorem set_values_raises_iff (s : Store) (hp : ProperStore s) (b : List (Nat × Rat)) :
    (setAll s b).2 = none ↔ Acceptable s b := by
  constructor
  · exact setAll_ok_acceptable hp
  · intro h
    rw [setAll_acceptable hp h]

/-- A single parameter is set or not at all. -/
theorem set_one_atomic (s : Store) (i : Nat) (v : Rat) (h : (setAll s [(i, v)]).2 ≠ none) :
    (setAll s [(i, v)]).1 = s := by
  unfold setAll at h ⊢
  rcases hr : (s i).setValue v with e | q
  · rfl
  · rw [hr] at h
    exact (h rfl).elim

/-- C13 fails: the second value is rejected, the first parameter has changed. -/
theorem set_values_not_atomic_violated :
    let r := setAll exStore [(1, 7), (0, 99)]
    r.2 = some .valueError ∧ (exStore 1).value = 1 ∧ (r.1 1).value = 7 ∧ (r.1 0).value = (exStore 0).value := by
  decide +kernel

/-- A case of success meeting the hypotheses. -/
example : (setAll exStore [(1, 7), (0, 9)]).2 = none ∧ ((setAll exStore [(1, 7), (0, 9)]).1 0).value = 9 := by
  decide +kernel

end Zfit.Par
