import Verif.Param.Spec
import Mathlib.Tactic.Linarith
import Mathlib.Algebra.Order.Group.MinMax

namespace Zfit.Par

open Zfit

theorem tol_eq {p : Param} (h : Proper p.lower p.upper) : p.tol true = tolerance p.lower p.upper := by
  unfold Param.tol tolerance
  rcases hl : p.lower with _ | l <;> rcases hu : p.upper with _ | u
  · rfl
  · rfl
  · rfl
  · have := h l u hl hu
    simp only [if_true]
    rw [abs_of_pos (by linarith)]
    congr 1
    rw [mul_one_div]

theorem tolerance_pos {lower upper : Option Rat} (h : Proper lower upper) : 0 < tolerance lower upper := by
  unfold tolerance
  rcases lower with _ | l <;> rcases upper with _ | u <;> simp only
  · norm_num
  · norm_num
  · norm_num
  · have := h l u rfl rfl
    rw [lt_min_iff]
    exact ⟨by apply div_pos <;> linarith, by norm_num⟩

theorem atLimit_iff {p : Param} (h : Proper p.lower p.upper) (v : Rat) :
    (p.hasLimits && p.atLimit v true) = true ↔ Beyond p.lower p.upper v := by
  unfold Param.atLimit Beyond
  simp only [if_true, tol_eq h]
  rcases hl : p.lower with _ | l <;> rcases hu : p.upper with _ | u <;> simp [Param.hasLimits, hl, hu]

theorem setValue_cases {p : Param} (h : Proper p.lower p.upper) (v : Rat) :
    (Beyond p.lower p.upper v ∧ p.setValue v = .error .valueError) ∨
      (¬ Beyond p.lower p.upper v ∧ p.setValue v = .ok (p.assign v)) := by
  unfold Param.setValue
  by_cases hb : Beyond p.lower p.upper v
  · exact Or.inl ⟨hb, by rw [if_pos ((atLimit_iff h v).2 hb)]⟩
  · exact Or.inr ⟨hb, by rw [if_neg (fun hc => hb ((atLimit_iff h v).1 hc))]⟩

theorem within_not_beyond {lower upper : Option Rat} (h : Proper lower upper) {v : Rat} (hw : Within lower upper v) :
    ¬ Beyond lower upper v := by
  have := tolerance_pos h
  rintro (⟨l, hl, hv⟩ | ⟨u, hu, hv⟩)
  · have := hw.1 l hl
    linarith
  · have := hw.2 u hu
    linarith

theorem value_eq_clip (p : Param) : p.value = clip p.lower p.upper p.stored := by
  unfold Param.value
  split
  · rfl
  · rename_i h
    rcases hl : p.lower with _ | l <;> rcases hu : p.upper with _ | u <;> simp_all [Param.hasLimits, clip]

theorem clip_within {lower upper : Option Rat} (h : ∀ l u, lower = some l → upper = some u → l ≤ u) (v : Rat) :
    Within lower upper (clip lower upper v) := by
  unfold Within clip
  rcases lower with _ | l <;> rcases upper with _ | u <;> simp
  exact h l u rfl rfl

theorem Proper.le {lower upper : Option Rat} (h : Proper lower upper) :
    ∀ l u, lower = some l → upper = some u → l ≤ u := fun l u hl hu => le_of_lt (h l u hl hu)

theorem clip_clipped {lower upper : Option Rat} (h : Proper lower upper) (v : Rat) :
    Clipped lower upper v (clip lower upper v) := by
  unfold Clipped Within clip
  rcases lower with _ | l <;> rcases upper with _ | u <;> simp
  have := h l u rfl rfl
  refine ⟨?_, ?_, ?_⟩
  · intro h1 h2
    rw [min_eq_left h2, max_eq_left h1]
  · intro h1
    exact Or.inl h1
  · intro h1
    rw [min_eq_right h1, max_eq_left (by linarith)]

theorem value_within {p : Param} (h : Proper p.lower p.upper) : Within p.lower p.upper p.value := by
  rw [value_eq_clip]
  exact clip_within h.le _

theorem clip_of_within {lower upper : Option Rat} (h : Proper lower upper) {v : Rat} (hw : Within lower upper v) :
    clip lower upper v = v := (clip_clipped h v).1 hw

/-! ### stores -/

/-- Same limits everywhere. -/
def SameLimits (s s' : Store) : Prop := ∀ i, (s' i).lower = (s i).lower ∧ (s' i).upper = (s i).upper

theorem SameLimits.refl (s : Store) : SameLimits s s := fun _ => ⟨rfl, rfl⟩

theorem SameLimits.trans {a b c : Store} (h : SameLimits a b) (h' : SameLimits b c) : SameLimits a c :=
  fun i => ⟨(h' i).1.trans (h i).1, (h' i).2.trans (h i).2⟩

theorem SameLimits.proper {a b : Store} (h : SameLimits a b) (hp : ProperStore a) : ProperStore b := by
  intro i
  rw [(h i).1, (h i).2]
  exact hp i

theorem SameLimits.acceptable {a b : Store} (h : SameLimits a b) {l : List (Nat × Rat)} (hp : Acceptable a l) :
    Acceptable b l := by
  intro iv hiv
  rw [(h iv.1).1, (h iv.1).2]
  exact hp iv hiv

theorem setValue_ok {p q : Param} {v : Rat} (h : p.setValue v = .ok q) : q = p.assign v := by
  unfold Param.setValue at h
  split at h
  · cases h
  · cases h
    rfl

theorem put_assign_same (s : Store) (i : Nat) (v : Rat) : SameLimits s (s.put i ((s i).assign v)) := by
  intro j
  unfold Store.put
  split
  · rename_i h
    subst h
    exact ⟨rfl, rfl⟩
  · exact ⟨rfl, rfl⟩

theorem setAll_same (s : Store) (b : List (Nat × Rat)) : SameLimits s (setAll s b).1 := by
  induction b generalizing s with
  | nil => exact SameLimits.refl s
  | cons iv b ih =>
    obtain ⟨i, v⟩ := iv
    unfold setAll
    split
    · rename_i p hp
      rw [setValue_ok hp]
      exact (put_assign_same s i v).trans (ih _)
    · exact SameLimits.refl s

theorem assignAll_same (s : Store) (b : List (Nat × Rat)) : SameLimits s (assignAll s b) := by
  induction b generalizing s with
  | nil => exact SameLimits.refl s
  | cons iv b ih =>
    obtain ⟨i, v⟩ := iv
    exact (put_assign_same s i v).trans (ih _)

theorem run_same (prog : Prog) : ∀ s, SameLimits s (run prog s).1 := by
  induction prog with
  | raise => intro s; exact SameLimits.refl s
  | skip => intro s; exact SameLimits.refl s
  | set b => intro s; exact setAll_same s b
  | assign b => intro s; exact assignAll_same s b
  | seq a b iha ihb =>
    intro s
    have ha := iha s
    show SameLimits s (andThen (run a s) (run b)).1
    rcases hr : run a s with ⟨s', _ | e⟩
    · rw [hr] at ha
      exact ha.trans (ihb s')
    · rw [hr] at ha
      exact ha
  | withSet b body ih =>
    intro s
    have h1 := setAll_same s b
    show SameLimits s (withBlock s b (run body)).1
    unfold withBlock
    rcases hr : setAll s b with ⟨s', _ | e⟩
    · rw [hr] at h1
      have h2 := ih s'
      have h3 := setAll_same (run body s').1 (b.map fun iv => (iv.1, (s iv.1).value))
      simp only [leave]
      rcases hr' : setAll (run body s').1 (b.map fun iv => (iv.1, (s iv.1).value)) with ⟨s'', _ | e⟩
      · rw [hr'] at h3
        simp only [hr']
        exact (h1.trans h2).trans h3
      · rw [hr'] at h3
        simp only [hr']
        exact (h1.trans h2).trans h3
    · rw [hr] at h1
      exact h1
  | tryExcept a b iha ihb =>
    intro s
    have ha := iha s
    show SameLimits s (orElse (run a s) (run b)).1
    rcases hr : run a s with ⟨s', _ | e⟩
    · rw [hr] at ha
      exact ha
    · rw [hr] at ha
      exact ha.trans (ihb s')

theorem setAll_untouched (s : Store) (b : List (Nat × Rat)) (j : Nat) (hj : j ∉ b.map (·.1)) :
    (setAll s b).1 j = s j := by
  induction b generalizing s with
  | nil => rfl
  | cons iv b ih =>
    obtain ⟨i, v⟩ := iv
    simp only [List.map_cons, List.mem_cons, not_or] at hj
    unfold setAll
    split
    · rw [ih _ hj.2]
      simp [Store.put, hj.1]
    · rfl

theorem assignAll_untouched (s : Store) (b : List (Nat × Rat)) (j : Nat) (hj : j ∉ b.map (·.1)) :
    assignAll s b j = s j := by
  induction b generalizing s with
  | nil => rfl
  | cons iv b ih =>
    obtain ⟨i, v⟩ := iv
    simp only [List.map_cons, List.mem_cons, not_or] at hj
    unfold assignAll
    rw [ih _ hj.2]
    simp [Store.put, hj.1]

theorem setAll_acceptable {s : Store} (hp : ProperStore s) {b : List (Nat × Rat)} (ha : Acceptable s b) :
    setAll s b = (assignAll s b, none) := by
  induction b generalizing s with
  | nil => rfl
  | cons iv b ih =>
    obtain ⟨i, v⟩ := iv
    unfold setAll assignAll
    rcases setValue_cases (hp i) v with ⟨hb, _⟩ | ⟨_, he⟩
    · exact (ha (i, v) List.mem_cons_self hb).elim
    · rw [he]
      have hs := put_assign_same s i v
      exact ih (hs.proper hp) (hs.acceptable fun iv hiv => ha iv (List.mem_cons_of_mem _ hiv))

theorem setAll_ok_acceptable {s : Store} (hp : ProperStore s) {b : List (Nat × Rat)} (h : (setAll s b).2 = none) :
    Acceptable s b := by
  induction b generalizing s with
  | nil => intro iv hiv; cases hiv
  | cons iv b ih =>
    obtain ⟨i, v⟩ := iv
    unfold setAll at h
    rcases setValue_cases (hp i) v with ⟨hb, he⟩ | ⟨hb, he⟩
    · rw [he] at h
      cases h
    · rw [he] at h
      have hs := put_assign_same s i v
      have := ih (hs.proper hp) h
      intro iv hiv
      rcases List.mem_cons.1 hiv with rfl | hiv
      · exact hb
      · have := this iv hiv
        rwa [(hs iv.1).1, (hs iv.1).2] at this

theorem setAll_reject {s : Store} (hp : ProperStore s) {pre post : List (Nat × Rat)} {i : Nat} {v : Rat}
    (ha : Acceptable s pre) (hb : Beyond (s i).lower (s i).upper v) :
    setAll s (pre ++ (i, v) :: post) = (assignAll s pre, some .valueError) := by
  induction pre generalizing s with
  | nil =>
    simp only [List.nil_append]
    unfold setAll
    rcases setValue_cases (hp i) v with ⟨_, he⟩ | ⟨hn, _⟩
    · rw [he]
      rfl
    · exact (hn hb).elim
  | cons jw pre ih =>
    obtain ⟨j, w⟩ := jw
    simp only [List.cons_append]
    unfold setAll assignAll
    rcases setValue_cases (hp j) w with ⟨hb', _⟩ | ⟨_, he⟩
    · exact (ha (j, w) List.mem_cons_self hb').elim
    · rw [he]
      have hs := put_assign_same s j w
      refine ih (hs.proper hp) (hs.acceptable fun iv hiv => ha iv (List.mem_cons_of_mem _ hiv)) ?_
      rw [(hs i).1, (hs i).2]
      exact hb

/-- If every pair for `i` carries the value `v`, and there is one, `i` ends up with `v`. -/
theorem assignAll_const {s : Store} {b : List (Nat × Rat)} {i : Nat} {v : Rat} (hmem : i ∈ b.map (·.1))
    (hall : ∀ iv ∈ b, iv.1 = i → iv.2 = v) : assignAll s b i = (s i).assign v := by
  induction b generalizing s with
  | nil => cases hmem
  | cons iv b ih =>
    obtain ⟨j, w⟩ := iv
    unfold assignAll
    by_cases hin : i ∈ b.map (·.1)
    · rw [ih hin (fun iv hiv => hall iv (List.mem_cons_of_mem _ hiv))]
      unfold Store.put
      split
      · rename_i hij
        subst hij
        rfl
      · rfl
    · rw [assignAll_untouched _ _ _ hin]
      have hij : i = j := by
        simp only [List.map_cons, List.mem_cons] at hmem
        exact hmem.resolve_right hin
      subst hij
      have := hall (i, w) List.mem_cons_self rfl
      simp only at this
      subst this
      simp [Store.put]

theorem assign_value {p : Param} (v : Rat) : (p.assign v).value = clip p.lower p.upper v := by
  rw [value_eq_clip]
  rfl

/-- Restoring: setting every parameter of a block to the value it had in `s` succeeds in any store with the limits of
`s`, and gives these values back. -/
theorem restore {s r : Store} (hp : ProperStore s) (hs : SameLimits s r) (b : List (Nat × Rat)) :
    (setAll r (b.map fun iv => (iv.1, (s iv.1).value))).2 = none ∧
    (∀ i ∈ b.map (·.1), ((setAll r (b.map fun iv => (iv.1, (s iv.1).value))).1 i).value = (s i).value) := by
  have hacc : Acceptable r (b.map fun iv => (iv.1, (s iv.1).value)) := by
    intro iv hiv
    obtain ⟨jw, _, rfl⟩ := List.mem_map.1 hiv
    simp only
    rw [(hs jw.1).1, (hs jw.1).2]
    exact within_not_beyond (hp _) (value_within (hp _))
  rw [setAll_acceptable (hs.proper hp) hacc]
  refine ⟨rfl, ?_⟩
  intro i hi
  simp only
  rw [assignAll_const (v := (s i).value) (by simpa using hi)]
  · rw [assign_value, (hs i).1, (hs i).2]
    exact clip_of_within (hp i) (value_within (hp i))
  · intro iv hiv he
    obtain ⟨jw, _, rfl⟩ := List.mem_map.1 hiv
    simp only at he ⊢
    rw [he]

theorem withSet_run {s : Store} (hp : ProperStore s) (b : List (Nat × Rat)) (body : Prog)
    (hin : (setAll s b).2 = none) :
    (run (.withSet b body) s).2 = (run body (setAll s b).1).2 ∧
    (∀ i ∈ b.map (·.1), ((run (.withSet b body) s).1 i).value = (s i).value) ∧
    (∀ i, i ∉ b.map (·.1) → (run (.withSet b body) s).1 i = (run body (setAll s b).1).1 i) := by
  have hsame := (setAll_same s b).trans (run_same body (setAll s b).1)
  obtain ⟨h1, h2⟩ := restore hp hsame b
  show (withBlock s b (run body)).2 = _ ∧ (∀ i ∈ _, ((withBlock s b (run body)).1 i).value = _) ∧
    (∀ i, _ → (withBlock s b (run body)).1 i = _)
  unfold withBlock
  rcases hr : setAll s b with ⟨s', e⟩
  rw [hr] at hin h1 h2
  simp only at hin
  subst hin
  simp only [leave]
  rcases hr' : setAll (run body s').1 (b.map fun iv => (iv.1, (s iv.1).value)) with ⟨s'', e⟩
  rw [hr'] at h1 h2
  simp only at h1
  subst h1
  simp only [hr']
  refine ⟨trivial, h2, ?_⟩
  intro i hi
  have := setAll_untouched (run body s').1 (b.map fun iv => (iv.1, (s iv.1).value)) i (by simpa using hi)
  rw [hr'] at this
  exact this

/-! ### histories -/

/-- Proper limits, and the stored value not beyond them. -/
def Tame (lower upper : Option Rat) (p : Param) : Prop :=
  p.lower = lower ∧ p.upper = upper ∧ ¬ Beyond lower upper p.stored

theorem tame_set {lower upper : Option Rat} (hpr : Proper lower upper) {p q : Param} {v : Rat}
    (hp : Tame lower upper p) (h : p.setValue v = .ok q) : Tame lower upper q := by
  obtain ⟨h1, h2, _⟩ := hp
  rcases setValue_cases (p := p) (by rw [h1, h2]; exact hpr) v with ⟨_, he⟩ | ⟨hn, he⟩
  · rw [he] at h
    cases h
  · rw [he] at h
    cases h
    rw [h1, h2] at hn
    exact ⟨h1, h2, hn⟩

mutual
theorem Op.run_tame {lower upper : Option Rat} (hpr : Proper lower upper) :
    ∀ (o : Op) (p : Param), o.checked → Tame lower upper p → Tame lower upper (o.run p).1
  | .setValue v, p, _, hp => by
    unfold Op.run
    rcases h : p.setValue v with e | q
    · exact hp
    · exact tame_set hpr hp h
  | .randomize v, p, _, hp => by
    unfold Op.run
    rcases h : p.setValue v with e | q
    · exact hp
    · exact tame_set hpr hp h
  | .assign v, p, hc, hp => by simp [Op.checked] at hc
  | .setLower v, p, hc, hp => by simp [Op.checked] at hc
  | .setUpper v, p, hc, hp => by simp [Op.checked] at hc
  | .withValue v body, p, hc, hp => by
    unfold Op.run
    rcases h : p.setValue v with e | q
    · exact hp
    · have hq := runOps_tame hpr body q (by simpa [Op.checked] using hc) (tame_set hpr hp h)
      simp only
      rcases h' : (Op.run.runOps body q).1.setValue p.value with e | q'
      · exact hq
      · exact tame_set hpr hq h'

theorem runOps_tame {lower upper : Option Rat} (hpr : Proper lower upper) :
    ∀ (os : List Op) (p : Param), Op.checked.all os → Tame lower upper p → Tame lower upper (Op.run.runOps os p).1
  | [], p, _, hp => by unfold Op.run.runOps; exact hp
  | o :: rest, p, hc, hp => by
    unfold Op.checked.all at hc
    have h1 := Op.run_tame hpr o p hc.1 hp
    unfold Op.run.runOps
    rcases h : o.run p with ⟨q, _ | e⟩
    · rw [h] at h1
      exact runOps_tame hpr rest q hc.2 h1
    · rw [h] at h1
      exact h1
end

theorem history_tame {lower upper : Option Rat} (hpr : Proper lower upper) (os : List Op) :
    ∀ p, Op.checked.all os → Tame lower upper p → Tame lower upper (history os p) := by
  induction os with
  | nil => intro p _ hp; exact hp
  | cons o rest ih =>
    intro p hc hp
    unfold Op.checked.all at hc
    exact ih _ hc.2 (Op.run_tame hpr o p hc.1 hp)

end Zfit.Par
