import Verif.Run.WarnModel
import Mathlib.Data.List.Induction
import Mathlib.Data.List.Basic
import Mathlib.Tactic.Common

/-!
# C234-C236, C240: warnings are given once and only if they are switched on
-/

namespace Zfit.Run

open Zfit

/-! ## What is meant -/

/-- The value last given to a setting by the user, if any. -/
def lastSet (f : Family) (key : String) : List WOp → Option Bool
  | [] => none
  | .set g k b :: ops => (lastSet f key ops).or (if g = f ∧ k = key then some b else none)
  | _ :: ops => lastSet f key ops

/-- A warning is switched off: its own setting or that for all is false. -/
def SwitchedOff (f : Family) (id : String) (before : List WOp) : Prop :=
  lastSet f id before = some false ∨ lastSet f "all" before = some false

/-! ## Histories -/

theorem run_append (w : Warn) (a b : List WOp) :
    w.run (a ++ b) = (((w.run a).1.run b).1, (w.run a).2 ++ ((w.run a).1.run b).2) := by
  induction a generalizing w with
  | nil => simp [Warn.run]
  | cons op a ih => simp [Warn.run, ih, List.append_assoc]

theorem run_snoc (w : Warn) (a : List WOp) (op : WOp) :
    w.run (a ++ [op]) = (((w.run a).1.step op).1, (w.run a).2 ++ ((w.run a).1.step op).2.toList) := by
  rw [run_append]
  simp [Warn.run]

theorem lastSet_snoc (f : Family) (key : String) (a : List WOp) (op : WOp) :
    lastSet f key (a ++ [op]) =
      match op with
      | .set g k b => if g = f ∧ k = key then some b else lastSet f key a
      | _ => lastSet f key a := by
  induction a with
  | nil => cases op <;> simp [lastSet]
  | cons o a ih =>
    cases o with
    | set g k b =>
      simp only [List.cons_append, lastSet, ih]
      cases op <;> simp only
      split <;> simp
    | _ => simpa only [List.cons_append, lastSet] using ih

/-! ## What the operations change -/

theorem mem_addTo (l : List String) (id x : String) : x ∈ addTo l id ↔ x ∈ l ∨ x = id := by
  unfold addTo
  split
  · exact ⟨.inl, fun h => h.elim id_of fun h => by rw [h]; assumption⟩
  · simp
where
  id_of {P : Prop} (h : P) : P := h

@[simp] theorem settings_put (w : Warn) (f g : Family) (s : List (String × Bool)) :
    (w.putSettings f s).settings g = if g = f then s else w.settings g := by
  cases f <;> cases g <;> simp [Warn.putSettings, Warn.settings]

@[simp] theorem settings_putWarned (w : Warn) (f g : Family) (id : String) : (w.putWarned f id).settings g = w.settings g := by
  cases f <;> cases g <;> rfl

@[simp] theorem warned_put (w : Warn) (f g : Family) (s : List (String × Bool)) : (w.putSettings f s).warned g = w.warned g := by
  cases f <;> cases g <;> rfl

@[simp] theorem mem_warned_putWarned (w : Warn) (f g : Family) (id x : String) :
    x ∈ (w.putWarned f id).warned g ↔ x ∈ w.warned g ∨ (g = f ∧ x = id) := by
  cases f <;> cases g <;> simp [Warn.putWarned, Warn.warned, mem_addTo]

theorem lookAt_warned (w : Warn) (f g : Family) (key : String) : (w.lookAt f key).1.warned g = w.warned g := by
  unfold Warn.lookAt
  split <;> simp

/-- The warnings that are given once. -/
def marked (w : Warn) : Given → Bool
  | .feature f id => decide (id ∈ w.warned f)
  | .changing _ => false
  | .once id => decide (id ∈ w.warnedOnce)
  | .experimental n => decide (n ∈ w.experimental)

theorem marked_putSettings (w : Warn) (f : Family) (s : List (String × Bool)) (g : Given) :
    marked (w.putSettings f s) g = marked w g := by
  cases g with
  | feature => simp [marked]
  | changing => rfl
  | once => cases f <;> rfl
  | experimental => cases f <;> rfl

theorem marked_lookAt (w : Warn) (f : Family) (key : String) (g : Given) : marked (w.lookAt f key).1 g = marked w g := by
  unfold Warn.lookAt
  split
  · rfl
  · exact marked_putSettings w f _ g

theorem marked_putWarned (w : Warn) (f : Family) (id : String) (g : Given) :
    marked (w.putWarned f id) g = (marked w g || decide (g = .feature f id)) := by
  cases g with
  | feature f' id' =>
    simp only [marked, mem_warned_putWarned, Bool.decide_or, Given.feature.injEq]
  | changing => simp [marked]
  | once => cases f <;> simp [marked, Warn.putWarned] <;> rfl
  | experimental => cases f <;> simp [marked, Warn.putWarned] <;> rfl

/-- One operation gives a warning only if it is not marked, and marks it. -/
theorem step_marked (w : Warn) (op : WOp) (g : Given) (hg : ∀ id, g ≠ .changing id) :
    ((w.step op).2 = some g → marked w g = false) ∧ marked (w.step op).1 g = (marked w g || decide ((w.step op).2 = some g)) := by
  cases op with
  | feature f id =>
    simp only [Warn.step, warnFeature]
    split
    · split
      · rename_i h1 h2
        simp only [Bool.and_eq_true, decide_eq_true_eq, lookAt_warned] at h2
        refine ⟨?_, ?_⟩
        · rintro ⟨⟩
          simp [marked, h2.2]
        · rw [marked_putWarned, marked_lookAt]
          congr 1
          simp [eq_comm]
      · simp [marked_lookAt]
    · simp
  | changing id =>
    simp only [Warn.step, warnChanging]
    split
    · have : ∀ id, Given.changing id ≠ g := fun id h => hg id h.symm
      cases g with
      | feature f id' => cases f <;> simp [marked, Warn.warned] <;> rfl
      | changing id' => exact absurd rfl (hg id')
      | once => simp [marked]
      | experimental => simp [marked]
    · simp
  | once id =>
    simp only [Warn.step, warnOnce]
    split
    · rename_i h
      cases g with
      | feature f id' => cases f <;> simp [marked, Warn.warned] <;> rfl
      | changing id' => exact absurd rfl (hg id')
      | once id' =>
        simp only [marked, mem_addTo, Bool.decide_or, Option.some.injEq, Given.once.injEq]
        refine ⟨?_, ?_⟩
        · rintro rfl
          simp [h]
        · congr 1
          simp [eq_comm]
      | experimental => simp [marked]
    · simp
  | experimental n =>
    simp only [Warn.step, warnExperimental]
    split
    · rename_i h
      cases g with
      | feature f id' => cases f <;> simp [marked, Warn.warned] <;> rfl
      | changing id' => exact absurd rfl (hg id')
      | once id' => simp [marked]
      | experimental k =>
        simp only [marked, List.mem_append, List.mem_singleton, Bool.decide_or, Option.some.injEq, Given.experimental.injEq]
        refine ⟨?_, ?_⟩
        · rintro rfl
          simp [h]
        · congr 1
          simp [eq_comm]
    · simp
  | set f key b => simp [Warn.step, marked_putSettings]
  | look f key => simp [Warn.step, marked_lookAt]

/-! ## C234 -/

theorem run_count (w : Warn) (ops : List WOp) (g : Given) (hg : ∀ id, g ≠ .changing id) :
    (w.run ops).2.count g ≤ (if marked w g then 0 else 1) := by
  induction ops generalizing w with
  | nil => simp [Warn.run]
  | cons op ops ih =>
    obtain ⟨h1, h2⟩ := step_marked w op g hg
    have h3 := ih (w.step op).1
    simp only [Warn.run, List.count_append]
    rw [h2] at h3
    by_cases hs : (w.step op).2 = some g
    · have hc : (w.step op).2.toList.count g = 1 := by simp [hs]
      simp only [hs, decide_true, Bool.or_true, if_true] at h3
      rw [hc, h1 hs]
      simp only [Bool.false_eq_true, if_false]
      omega
    · have hc : (w.step op).2.toList.count g = 0 := by
        rw [List.count_eq_zero]
        intro hmem
        exact hs (by simpa using hmem)
      simp only [hs, decide_false, Bool.or_false] at h3
      omega

/-- C234: whatever is done in whatever order, a warning about an advanced or changed feature, a warning to be given once and the warning
about an experimental function is given at most once. -/
theorem warned_once (ops : List WOp) (g : Given) (hg : ∀ id, g ≠ .changing id) : (Warn.init.run ops).2.count g ≤ 1 :=
  Nat.le_trans (run_count Warn.init ops g hg) (by split <;> omega)

example : (Warn.init.run [.feature .advanced "exp_shift", .experimental 3, .feature .advanced "exp_shift", .experimental 3, .once "a",
    .experimental 4, .once "a"]).2 = [.feature .advanced "exp_shift", .experimental 3, .once "a", .experimental 4] := by decide +kernel

/-- C240 is violated by features that will change: the warning looks at the identifiers of the features that were changed, and is given again
every time. -/
theorem changing_violated (id : String) : (Warn.init.run [.changing id, .changing id]).2.count (.changing id) = 2 := by
  simp [Warn.run, Warn.step, warnChanging, Warn.init]

/-! ## C235 -/

/-- The keys whose settings there are from the beginning. -/
def Known (f : Family) (key : String) : Prop := (dictGet (Warn.init.settings f) key).isSome = true

instance (f : Family) (key : String) : Decidable (Known f key) := by
  unfold Known
  infer_instance

theorem init_true (f : Family) (key : String) (b : Bool) (h : dictGet (Warn.init.settings f) key = some b) : b = true := by
  have hall : ∀ kv ∈ Warn.init.settings f, kv.2 = true := by cases f <;> decide
  unfold dictGet at h
  obtain ⟨kv, h1, rfl⟩ := Option.map_eq_some_iff.1 h
  exact hall kv (List.mem_of_find?_eq_some h1)

/-- The settings after a history in which only settings that were there were looked at. -/
theorem settings_run (f : Family) (before : List WOp) (hl : ∀ key, WOp.look f key ∈ before → Known f key) :
    (∀ key, dictGet ((Warn.init.run before).1.settings f) key = (lastSet f key before).or (dictGet (Warn.init.settings f) key)) ∧
    (∀ id, id ∈ (Warn.init.run before).1.warned f ↔ Given.feature f id ∈ (Warn.init.run before).2) := by
  induction before using List.reverseRecOn with
  | nil =>
    refine ⟨fun key => by simp [Warn.run, lastSet], fun id => ?_⟩
    cases f <;> simp [Warn.run, Warn.init, Warn.warned]
  | append_singleton before op ih =>
    obtain ⟨ih1, ih2⟩ := ih fun key h => hl key (List.mem_append_left _ h)
    generalize hw : (Warn.init.run before).1 = w at ih1 ih2
    generalize hgs : (Warn.init.run before).2 = gs at ih2
    have hpres : ∀ g key, (g = f → (dictGet (w.settings f) key).isSome = true) →
        (w.lookAt g key).1.settings f = w.settings f := by
      intro g key h
      unfold Warn.lookAt
      split
      · rfl
      · rename_i hnone
        rw [settings_put]
        split
        · rename_i hfg
          have := h hfg.symm
          rw [hfg, hnone] at this
          cases this
        · rfl
    have hknown : ∀ key, Known f key → (dictGet (w.settings f) key).isSome = true := by
      intro key h
      rw [ih1 key]
      cases lastSet f key before with
      | none => simpa [Known] using h
      | some b => simp
    have hall : Known f "all" := by cases f <;> exact (by decide +kernel)
    have hkeep : ∀ g id, (warnFeature w g id).1.settings f = w.settings f := by
      intro g id
      have h0 := hpres g "all" fun _ => hknown _ hall
      unfold warnFeature
      split
      · dsimp only
        split
        · rw [settings_putWarned, h0]
        · exact h0
      · rfl
    have hstep := step_marked w op
    rw [run_snoc, hw, hgs]
    refine ⟨fun key => ?_, fun id => ?_⟩
    · rw [lastSet_snoc]
      cases op with
      | feature g id => simp only [Warn.step, hkeep, ih1]
      | changing id =>
        have : (warnChanging w id).1.settings f = w.settings f := by
          unfold warnChanging
          split <;> cases f <;> rfl
        simp only [Warn.step, this, ih1]
      | once id =>
        have : (warnOnce w id).1.settings f = w.settings f := by
          unfold warnOnce
          split <;> cases f <;> rfl
        simp only [Warn.step, this, ih1]
      | experimental n =>
        have : (warnExperimental w n).1.settings f = w.settings f := by
          unfold warnExperimental
          split <;> cases f <;> rfl
        simp only [Warn.step, this, ih1]
      | set g k b =>
        simp only [Warn.step, settings_put]
        by_cases hfg : f = g
        · subst hfg
          by_cases hk : k = key
          · subst hk
            simp [dictGet_set_self]
          · rw [if_pos rfl, dictGet_set_ne _ _ _ _ (Ne.symm hk), ih1]
            simp [hk]
        · rw [if_neg hfg, ih1]
          simp [Ne.symm hfg]
      | look g k =>
        have : (w.lookAt g k).1.settings f = w.settings f := by
          refine hpres g k ?_
          rintro rfl
          exact hknown k (hl k (by simp))
        simp only [Warn.step, this, ih1]
    · have h := (hstep (.feature f id) (by simp)).2
      simp only [marked] at h
      have h' : id ∈ (w.step op).1.warned f ↔ id ∈ w.warned f ∨ (w.step op).2 = some (.feature f id) := by
        have := congrArg (· = true) h
        simpa using this
      rw [h', ih2]
      simp

/-- C235, the part that holds: the warning about an advanced or changed feature is given, whatever happened before, exactly if it was not
given before and neither it nor all of its family are switched off by what was set last, as long as no setting was looked at that is not
there. Missing: looking at other settings, see `looking_violated`. -/
theorem feature_warned_partial (f : Family) (id : String) (before : List WOp) (hl : ∀ key, WOp.look f key ∈ before → Known f key) :
    ((Warn.init.run before).1.step (.feature f id)).2 = some (.feature f id) ↔
      ¬ SwitchedOff f id before ∧ Given.feature f id ∉ (Warn.init.run before).2 := by
  obtain ⟨h1, h2⟩ := settings_run f before hl
  generalize (Warn.init.run before).1 = w at h1 h2
  generalize (Warn.init.run before).2 = gs at h2
  have hid : (dictGet (w.settings f) id).getD true = (lastSet f id before).getD true := by
    rw [h1]
    cases lastSet f id before with
    | some b => rfl
    | none =>
      cases hi : dictGet (Warn.init.settings f) id with
      | none => rfl
      | some b => simp [init_true f id b hi]
  have hall : w.lookAt f "all" = (w, (lastSet f "all" before).getD true) := by
    have hi : dictGet (Warn.init.settings f) "all" = some true := by cases f <;> decide
    unfold Warn.lookAt
    rw [h1, hi]
    cases lastSet f "all" before <;> rfl
  simp only [Warn.step, warnFeature, hid, hall, SwitchedOff]
  rw [← h2 id]
  by_cases hm : id ∈ w.warned f
  · cases lastSet f id before with
    | none => simp [hm]
    | some a => cases a <;> simp [hm]
  · cases lastSet f id before with
    | none =>
      cases lastSet f "all" before with
      | none => simp [hm]
      | some b => cases b <;> simp [hm]
    | some a =>
      cases lastSet f "all" before with
      | none => cases a <;> simp [hm]
      | some b => cases a <;> cases b <;> simp [hm]

/-- Switched off, not given; switched on again, given. -/
example :
    (Warn.init.run [.set .advanced "exp_shift" false, .look .advanced "exp_shift", .feature .advanced "exp_shift"]).2 = [] ∧
    (Warn.init.run [.set .advanced "all" false, .feature .advanced "exp_shift", .set .advanced "all" true, .feature .advanced "exp_shift",
      .set .changed "all" false, .feature .changed "new_sum"]).2 = [.feature .advanced "exp_shift"] := by
  decide +kernel

/-- C235 is violated: looking at the setting of a warning that has none, as of "chi2_counts_small", switches the warning off. -/
theorem looking_violated :
    (Warn.init.run [.feature .advanced "chi2_counts_small"]).2 = [.feature .advanced "chi2_counts_small"] ∧
    ¬ SwitchedOff .advanced "chi2_counts_small" [.look .advanced "chi2_counts_small"] ∧
    (Warn.init.run [.look .advanced "chi2_counts_small", .feature .advanced "chi2_counts_small"]).2 = [] := by
  refine ⟨by decide +kernel, by simp [SwitchedOff, lastSet], by decide +kernel⟩

/-! ## C236 -/

theorem count_evict (c : List (ℕ × ℕ)) (h k : ℕ) : count (evict c h).1 k = count c k + (if k = h then 1 else 0) := by
  unfold evict count
  by_cases hk : k = h
  · subst hk
    simp [dictGet_set_self]
  · simp [dictGet_set_ne _ _ _ _ hk, hk]

/-- C236, the part that holds: the warning that a compiled function is removed from the cache again and again is given only from the fourth
removal on; the number of warnings is the number of removals minus three. Missing: that it is given once, see `removed_violated`. -/
theorem removed_partial (hs : List ℕ) (h : ℕ) : (evictions [] hs).count h = hs.count h - 3 := by
  have key : ∀ (c : List (ℕ × ℕ)), (evictions c hs).count h = (count c h + hs.count h - 3) - (count c h - 3) := by
    induction hs with
    | nil => intro c; simp [evictions]
    | cons a hs ih =>
      intro c
      rw [evictions, List.count_append, ih, count_evict, List.count_cons]
      have hflag : (evict c a).2 = decide (count c a + 1 > 3) := by
        have := count_evict c a a
        simp only [if_true] at this
        unfold evict at this ⊢
        dsimp only at this ⊢
        rw [this]
      rw [hflag]
      by_cases ha : a = h
      · subst ha
        by_cases h3 : count c a + 1 > 3
        · simp [h3]
          omega
        · simp [h3]
          omega
      · have ha' : ¬ h = a := Ne.symm ha
        have hz : (if decide (count c a + 1 > 3) = true then [a] else []).count h = 0 := by
          split <;> simp [ha]
        rw [hz]
        simp [ha, ha']
  have := key []
  simpa [count, dictGet] using this

/-- C236 is violated: at the fifth removal the warning is given again, and so on for ever. -/
theorem removed_violated (h n : ℕ) : (evictions [] (List.replicate (3 + n) h)).count h = n := by
  rw [removed_partial]
  simp

end Zfit.Run
