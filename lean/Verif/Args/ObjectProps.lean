import Verif.Args.Object
import Mathlib.Tactic.Linarith
import Mathlib.Tactic.Positivity
import Mathlib.Tactic.NormNum

/-!
# Properties of parameters as objects

* C118: `pickle_partial`, `at_limit_means`; `pickle_has_limits_violated`, `pickle_step_violated`, `pickle_empty_range_violated`
* C119: `randomize_partial`, `randomize_failed_partial`; `randomize_without_limits_violated`
* C120: `convert_param`, `convert_const`, `convert_free`, `convert_complex`, `auto_names_distinct`, `convert_rows`,
  `convert_rejected`
* C121: `convert_limits_partial`; `convert_limits_violated`, `convert_complex_limits_violated`
-/

namespace Zfit.Args

open Zfit

/-- A lower limit below the upper one, if both are finite. -/
def PObj.Proper (p : PObj) : Prop := ∀ l u, p.lower = .fin l → p.upper = .fin u → l < u

/-- The value is not below `l` and not above `u`. -/
def Between (l u : Lim) (v : ℚ) : Prop := (∀ x, l = .fin x → x ≤ v) ∧ ∀ x, u = .fin x → v ≤ x

private theorem tolerance_pos (l u : Lim) (h : ∀ x y, l = .fin x → u = .fin y → x < y) : 0 < tolerance l u true := by
  unfold tolerance
  cases l with
  | inf => simp
  | fin x =>
    cases u with
    | inf => simp
    | fin y =>
      have := h x y rfl rfl
      simp only [if_true]
      refine lt_min (mul_pos (abs_pos.2 (by linarith)) (by norm_num)) (by norm_num)

private theorem not_at_limit (p : PObj) (hp : p.Proper) (v : ℚ) (hv : Between p.lower p.upper v) :
    p.checkAtLimit v true = false := by
  unfold PObj.checkAtLimit
  split
  · rfl
  · have ht := tolerance_pos p.lower p.upper hp
    simp only [Bool.or_eq_false_iff]
    constructor
    · cases hl : p.lower with
      | inf => rfl
      | fin l =>
        have := hv.1 l hl
        rw [hl] at ht
        simp only [decide_eq_false_iff_not, not_le]
        linarith
    · cases hu : p.upper with
      | inf => rfl
      | fin u =>
        have := hv.2 u hu
        rw [hu] at ht
        simp only [decide_eq_false_iff_not, not_le]
        linarith

private theorem clip_between (l u : Lim) (h : ∀ x y, l = .fin x → u = .fin y → x ≤ y) (v : ℚ) :
    Between l u (atLeast l (atMost u v)) := by
  cases l with
  | inf =>
    cases u with
    | inf => exact ⟨fun _ h => (by cases h), fun _ h => (by cases h)⟩
    | fin y => exact ⟨fun _ h => (by cases h), fun _ h => (by cases h; exact min_le_right _ _)⟩
  | fin x =>
    cases u with
    | inf => exact ⟨fun _ h => (by cases h; exact le_max_right _ _), fun _ h => (by cases h)⟩
    | fin y =>
      exact ⟨fun _ h => (by cases h; exact le_max_right _ _),
        fun _ h' => (by cases h'; exact max_le (min_le_right _ _) (h x y rfl rfl))⟩

private theorem clip_id (l u : Lim) (v : ℚ) (h : Between l u v) : atLeast l (atMost u v) = v := by
  have h2 : atMost u v = v := by
    cases u with
    | inf => rfl
    | fin y => exact min_eq_left (h.2 y rfl)
  rw [h2]
  cases l with
  | inf => rfl
  | fin x => exact max_eq_left (h.1 x rfl)

private theorem value_between (p : PObj) (hp : p.Proper) : Between p.lower p.upper p.value := by
  unfold PObj.value
  split
  · exact clip_between _ _ (fun x y hx hy => (hp x y hx hy).le) _
  · next h =>
    unfold PObj.hasLimits at h
    simp only [Bool.or_eq_true, not_or, Bool.not_eq_true, Option.isSome_eq_false_iff, Option.isNone_iff_eq_none] at h
    unfold PObj.lower PObj.upper
    rw [h.1, h.2]
    exact ⟨fun _ h => (by cases h), fun _ h => (by cases h)⟩

private theorem no_limits (p : PObj) (h : ¬ p.hasLimits = true) : p.lower = .inf ∧ p.upper = .inf := by
  unfold PObj.hasLimits at h
  simp only [Bool.or_eq_true, not_or, Bool.not_eq_true, Option.isSome_eq_false_iff, Option.isNone_iff_eq_none] at h
  unfold PObj.lower PObj.upper
  rw [h.1, h.2]
  exact ⟨rfl, rfl⟩

/-- The check without looking at whether the limits were given. -/
private theorem check_eq (p : PObj) (v : ℚ) (exact : Bool) : p.checkAtLimit v exact =
    ((match p.lower with | .inf => false | .fin l => decide (v ≤ l - tolerance p.lower p.upper exact))
      || (match p.upper with | .inf => false | .fin u => decide (u + tolerance p.lower p.upper exact ≤ v))) := by
  unfold PObj.checkAtLimit
  by_cases h : p.hasLimits = true
  · rw [if_neg (by simp [h])]
    rfl
  · rw [if_pos (by simpa using h)]
    obtain ⟨h1, h2⟩ := no_limits p h
    rw [h1, h2]
    rfl

private theorem setValue_eq (p : PObj) (v : ℚ) :
    p.setValue v = if p.checkAtLimit v true then .error .valueError else .ok { p with stored := v } := by
  unfold PObj.setValue
  by_cases h : p.hasLimits = true
  · rw [h, Bool.true_and]
  · have : p.checkAtLimit v true = false := by unfold PObj.checkAtLimit; rw [if_pos (by simpa using h)]
    rw [this, Bool.and_false]

/-! ### Pickling -/

private theorem restored_eq (p : PObj) (hp : p.Proper) : p.restored =
    .ok ⟨p.name, p.value, some p.lower, some p.upper, p.floating, some p.stepsize, some p.label⟩ := by
  unfold PObj.restored PObj.make
  rw [setValue_eq]
  have h : PObj.checkAtLimit ⟨p.name, p.value, some p.lower, some p.upper, p.floating, some p.stepsize, some p.label⟩
      p.value true = false :=
    not_at_limit ⟨p.name, p.value, some p.lower, some p.upper, p.floating, some p.stepsize, some p.label⟩ hp _
      (value_between p hp)
  rw [h]
  rfl

/-- C118: `at_limit` is true if the value is at a limit, and false if it is at least `1e-5` away from both. -/
theorem at_limit_means (p : PObj) :
    (∀ x, p.lower = .fin x → p.value = x → p.atLimit = true) ∧
    (∀ x, p.upper = .fin x → p.value = x → p.atLimit = true) ∧
    ((∀ x, p.lower = .fin x → x + 1 / 100000 < p.value) → (∀ x, p.upper = .fin x → p.value + 1 / 100000 < x) →
      p.atLimit = false) := by
  have ht : tolerance p.lower p.upper false ≤ 0 ∧ -(1 / 100000) ≤ tolerance p.lower p.upper false := by
    unfold tolerance
    cases p.lower with
    | inf => norm_num
    | fin l =>
      cases p.upper with
      | inf => norm_num
      | fin u =>
        simp only [Bool.false_eq_true, if_false]
        have h1 : 0 ≤ |u - l| * (5 / 1000) := mul_nonneg (abs_nonneg _) (by norm_num)
        have h2 : min (|u - l| * (5 / 1000)) (1 / 100000) ≤ 1 / 100000 := min_le_right _ _
        have h3 : 0 ≤ min (|u - l| * (5 / 1000)) (1 / 100000) := le_min h1 (by norm_num)
        constructor <;> linarith
  unfold PObj.atLimit
  rw [check_eq]
  refine ⟨fun x hx hv => ?_, fun x hx hv => ?_, fun h1 h2 => ?_⟩
  · rw [Bool.or_eq_true]
    left
    rw [hx] at ht ⊢
    simp only [decide_eq_true_eq]
    linarith [ht.1]
  · rw [Bool.or_eq_true]
    right
    rw [hx] at ht ⊢
    simp only [decide_eq_true_eq]
    linarith [ht.1]
  · rw [Bool.or_eq_false_iff]
    constructor
    · cases hl : p.lower with
      | inf => rfl
      | fin l =>
        have := h1 l hl
        rw [hl] at ht
        simp only [decide_eq_false_iff_not]
        linarith [ht.2]
    · cases hl : p.upper with
      | inf => rfl
      | fin l =>
        have := h2 l hl
        rw [hl] at ht
        simp only [decide_eq_false_iff_not]
        linarith [ht.2]

example : (PObj.mk "x" 5 none (some (.fin 5)) true none none).atLimit = true := by decide +kernel

/-- C118: a parameter that is pickled and restored has the same name, value, limits, step size, label and is floating or
not as before; it is at its limit if it was and accepts the same values; doing it again changes nothing.  What is missing:
`has_limits` and `has_stepsize` change, see below. -/
theorem pickle_partial (p : PObj) (hp : p.Proper) :
    ∃ q, p.restored = .ok q ∧ q.name = p.name ∧ q.value = p.value ∧ q.lower = p.lower ∧ q.upper = p.upper ∧
      q.floating = p.floating ∧ q.stepsize = p.stepsize ∧ q.label = p.label ∧ q.atLimit = p.atLimit ∧
      (∀ w, p.stepAttr = some w → q.stepsize = w) ∧ (∀ l, p.labelAttr = some l → q.label = l) ∧
      (p.labelAttr = none → q.label = p.name) ∧
      (∀ v, (∃ r, q.setValue v = .ok r ∧ r.value = atLeast p.lower (atMost p.upper v)) ↔ ∃ r, p.setValue v = .ok r) ∧
      q.restored = .ok q := by
  have hb := value_between p hp
  let q : PObj := ⟨p.name, p.value, some p.lower, some p.upper, p.floating, some p.stepsize, some p.label⟩
  have hql : q.lower = p.lower := rfl
  have hqu : q.upper = p.upper := rfl
  have hqp : q.Proper := hp
  have hqv : q.value = p.value := clip_id p.lower p.upper p.value hb
  have hr : p.restored = .ok q := restored_eq p hp
  have hqw : ∀ w, p.stepAttr = some w → q.stepsize = w := fun w h => by
    show p.stepsize = w
    unfold PObj.stepsize
    rw [h]
    rfl
  have hqla : ∀ l, p.labelAttr = some l → q.label = l := fun l h => by
    show p.label = l
    unfold PObj.label
    rw [h]
    rfl
  have hqn : p.labelAttr = none → q.label = p.name := fun h => by
    show p.label = p.name
    unfold PObj.label
    rw [h]
    rfl
  refine ⟨q, hr, rfl, hqv, rfl, rfl, rfl, rfl, rfl, ?_, hqw, hqla, hqn, ?_, ?_⟩
  · unfold PObj.atLimit
    rw [check_eq q, check_eq p, hqv]
    rfl
  · intro v
    have hc : q.checkAtLimit v true = p.checkAtLimit v true := by
      rw [check_eq q, check_eq p, hql, hqu]
    rw [setValue_eq q, setValue_eq p, hc]
    cases p.checkAtLimit v true with
    | true => exact ⟨fun ⟨_, h, _⟩ => (by cases h), fun ⟨_, h⟩ => (by cases h)⟩
    | false => exact ⟨fun _ => ⟨_, rfl⟩, fun _ => ⟨_, rfl, rfl⟩⟩
  · rw [restored_eq q hqp, hqv]
    rfl

example : PObj.Proper ⟨"mu", 3, some (.fin 0), none, true, none, none⟩ := by
  intro l u _ hu
  cases hu

/-- C118 fails: a parameter without limits comes back as one that has limits. -/
theorem pickle_has_limits_violated (p : PObj) (h : p.hasLimits = false) :
    ∃ q, p.restored = .ok q ∧ q.hasLimits = true := by
  have hl := no_limits p (by simp [h])
  have hp : p.Proper := by intro l u hl' _; rw [hl.1] at hl'; cases hl'
  exact ⟨_, restored_eq p hp, rfl⟩

/-- C118 fails: a parameter without a step size, for which the minimiser chooses its first step, comes back with one. -/
theorem pickle_step_violated (p : PObj) (hp : p.Proper) (h : p.hasStepsize = false) :
    p.firstStep = none ∧ ∃ q, p.restored = .ok q ∧ q.firstStep = some (1 / 100) := by
  have hs : p.stepAttr = none := by
    unfold PObj.hasStepsize at h
    simpa using h
  refine ⟨by unfold PObj.firstStep; rw [h]; rfl,
    _, restored_eq p hp, ?_⟩
  unfold PObj.firstStep PObj.hasStepsize PObj.stepsize
  simp [hs]

/-- C118 fails: a parameter whose limits were both set to the same number (which is possible) cannot be restored. -/
theorem pickle_empty_range_violated (name : String) (v w : ℚ) (fl : Bool) :
    PObj.restored ⟨name, w, some (.fin v), some (.fin v), fl, none, none⟩ = .error .valueError := by
  unfold PObj.restored PObj.make
  rw [setValue_eq, check_eq]
  have hv : PObj.value ⟨name, w, some (.fin v), some (.fin v), fl, none, none⟩ = v := by
    show max (min w v) v = v
    exact max_eq_right (min_le_right _ _)
  have ht : tolerance (.fin v) (.fin v) true = 0 := by
    simp [tolerance]
  rw [hv]
  simp [PObj.lower, PObj.upper, ht]

/-! ### Randomising -/

/-- C119: with bounds that are finite (given, or the limits), not empty and within the limits, and a sampler that keeps
to its bounds, the parameter takes the value that is returned, which is within the bounds; nothing else changes. Missing from the full
claim: the cases of `randomize_without_limits_violated`. -/
theorem randomize_partial (p : PObj) (hp : p.Proper) (minval maxval : Option Lim) (low high : ℚ)
    (hl : minval.getD p.lower = .fin low) (hh : maxval.getD p.upper = .fin high)
    (hlow : Between p.lower p.upper low) (hhigh : Between p.lower p.upper high)
    (sampler : Lim → Lim → Except Err ℚ) (v : ℚ) (hv : sampler (.fin low) (.fin high) = .ok v) (hs : low ≤ v ∧ v ≤ high) :
    ∃ q, p.randomize minval maxval sampler = (q, .ok v) ∧ q.value = v ∧ q = { p with stored := v } := by
  have hb : Between p.lower p.upper v :=
    ⟨fun x hx => (hlow.1 x hx).trans hs.1, fun x hx => hs.2.trans (hhigh.2 x hx)⟩
  have hset : p.setValue v = .ok { p with stored := v } := by
    rw [setValue_eq, not_at_limit p hp v hb]
    rfl
  refine ⟨{ p with stored := v }, ?_, ?_, rfl⟩
  · unfold PObj.randomize
    simp only [hl, hh, hv, hset]
  · unfold PObj.value
    split
    · exact clip_id p.lower p.upper v hb
    · rfl

example : ∃ q, PObj.randomize ⟨"mu", 3, some (.fin 0), some (.fin 4), true, none, none⟩ none (some (.fin 2))
    (fun l u => match l, u with | .fin l, .fin u => .ok ((l + u) / 2) | _, _ => .error .valueError) = (q, .ok 1) ∧
      q.value = 1 := by
  obtain ⟨q, h, h', -⟩ := randomize_partial ⟨"mu", 3, some (.fin 0), some (.fin 4), true, none, none⟩
    (by intro l u hl hu; cases hl; cases hu; norm_num) none (some (.fin 2)) 0 2 rfl rfl
    ⟨fun x hx => by cases hx; norm_num, fun x hx => by cases hx; norm_num⟩
    ⟨fun x hx => by cases hx; norm_num, fun x hx => by cases hx; norm_num⟩
    (fun l u => match l, u with | .fin l, .fin u => .ok ((l + u) / 2) | _, _ => .error .valueError) 1
    (by norm_num) (by norm_num)
  exact ⟨q, h, h'⟩

/-- C119: if `randomize` raises, whatever the sampler does, the parameter is as before. Missing from the full claim: the cases of
`randomize_without_limits_violated`. -/
theorem randomize_failed_partial (p : PObj) (minval maxval : Option Lim) (sampler : Lim → Lim → Except Err ℚ) (q : PObj)
    (e : Err) (h : p.randomize minval maxval sampler = (q, .error e)) : q = p := by
  unfold PObj.randomize at h
  simp only at h
  split at h
  · exact (Prod.mk.inj h).1.symm
  · split at h
    · exact (Prod.mk.inj h).1.symm
    · exact absurd (Prod.mk.inj h).2 (by simp)

/-- C119 fails: without any limits `randomize` does not raise its "cannot randomize a parameter without limits"; the
sampler is asked for a number between minus and plus infinity, and whatever it returns becomes the value. -/
theorem randomize_without_limits_violated (p : PObj) (h : p.hasLimits = false) (sampler : Lim → Lim → Except Err ℚ) (v : ℚ)
    (hv : sampler .inf .inf = .ok v) : p.randomize none none sampler = ({ p with stored := v }, .ok v) := by
  obtain ⟨h1, h2⟩ := no_limits p (by simp [h])
  unfold PObj.randomize
  simp only [Option.getD_none, h1, h2, hv]
  unfold PObj.setValue
  rw [h]
  rfl

/-! ### Automatic conversion -/

/-- C120: a parameter is returned as it is, and no name is used up. -/
theorem convert_param (auto : Bool) (id : Nat) (a : ConvArgs) (n : Nat) :
    convertToParameter auto (.param id) a n = (.ok (.same id), n) := rfl

/-- C120: a real number becomes, by default, a constant of exactly this value, with the name given. -/
theorem convert_const (v : ℚ) (a : ConvArgs) (h : a.preferConstant = true) (n : Nat) :
    ∃ m k, convertToParameter true (.num v) a n = (.ok m, k) ∧ ∃ name, m = .const name v ∧
      ∀ s, a.name = some s → name = s := by
  refine ⟨_, _, by unfold convertToParameter; simp only [h, Bool.not_true]; rfl, _, rfl, ?_⟩
  intro s hs
  rw [hs]
  rfl

/-- C120: if constants are not preferred, it becomes a floating parameter of this value, with the limits, step size and
label given; this fails exactly if the value is beyond the limits. -/
theorem convert_free (v : ℚ) (a : ConvArgs) (h : a.preferConstant = false) (n : Nat)
    (hp : ∀ l u, a.lower.getD .inf = .fin l → a.upper.getD .inf = .fin u → l < u) :
    (Between (a.lower.getD .inf) (a.upper.getD .inf) v →
      ∃ p k, convertToParameter true (.num v) a n = (.ok (.free p), k) ∧ p.value = v ∧ p.lowerAttr = a.lower ∧
        p.upperAttr = a.upper ∧ p.stepAttr = a.stepsize ∧ p.labelAttr = a.label ∧ p.floating = true ∧
        ∀ s, a.name = some s → p.name = s) ∧
    (∀ p k, convertToParameter true (.num v) a n = (.ok (.free p), k) → p.stored = v ∧
      ∀ x, (a.lower = some (.fin x) → x - 1 / 10000000 < v) ∧ (a.upper = some (.fin x) → v < x + 1 / 10000000)) := by
  constructor
  · intro hb
    have hm : ∀ name, PObj.make name v a.lower a.upper a.stepsize true a.label
        = .ok ⟨name, v, a.lower, a.upper, true, a.stepsize, a.label⟩ := by
      intro name
      unfold PObj.make
      rw [setValue_eq]
      have h2 : PObj.checkAtLimit ⟨name, v, a.lower, a.upper, true, a.stepsize, a.label⟩ v true = false :=
        not_at_limit ⟨name, v, a.lower, a.upper, true, a.stepsize, a.label⟩ hp v hb
      rw [h2]
      rfl
    have hval : ∀ name, PObj.value ⟨name, v, a.lower, a.upper, true, a.stepsize, a.label⟩ = v := by
      intro name
      unfold PObj.value
      split
      · exact clip_id _ _ v hb
      · rfl
    refine ⟨_, _, by unfold convertToParameter; simp only [h, Bool.not_true, hm]; rfl, hval _, rfl, rfl, rfl, rfl, rfl, ?_⟩
    · intro s hs
      rw [hs]
      rfl
  · intro p k hpk
    unfold convertToParameter at hpk
    simp only [h, Bool.not_true, Bool.false_eq_true, if_false] at hpk
    split at hpk
    · next q hq =>
      have hpq : q = p := by
        have := Except.ok.inj (Prod.mk.inj hpk).1
        injection this
      subst hpq
      unfold PObj.make at hq
      rw [setValue_eq] at hq
      split at hq
      · cases hq
      · next hn =>
        cases hq
        refine ⟨rfl, ?_⟩
        rw [check_eq] at hn
        simp only [Bool.not_eq_true, Bool.or_eq_false_iff] at hn
        have ht : tolerance (a.lower.getD .inf) (a.upper.getD .inf) true ≤ 1 / 10000000 := by
          unfold tolerance
          simp only [if_true]
          split
          · exact min_le_right _ _
          · exact le_refl _
        intro x
        constructor
        · intro hx
          have h1 := hn.1
          simp only [PObj.lower, PObj.upper, hx, Option.getD_some, decide_eq_false_iff_not, not_le] at h1
          rw [hx] at ht
          simp only [Option.getD_some] at ht
          linarith
        · intro hx
          have h1 := hn.2
          simp only [PObj.lower, PObj.upper, hx, Option.getD_some, decide_eq_false_iff_not, not_le] at h1
          rw [hx] at ht
          simp only [Option.getD_some] at ht
          linarith
    · cases (Prod.mk.inj hpk).1

example : ∃ p k, convertToParameter true (.num 3)
    { preferConstant := false, lower := some (.fin 0), upper := some (.fin 4), name := some "a" } 7 = (.ok (.free p), k) ∧
      p.value = 3 ∧ p.name = "a" := by
  obtain ⟨p, k, h, hv, -, -, -, -, -, hn⟩ := (convert_free 3
    { preferConstant := false, lower := some (.fin 0), upper := some (.fin 4), name := some "a" } rfl 7
    (by intro l u hl hu; cases hl; cases hu; norm_num)).1
    ⟨fun x hx => by cases hx; norm_num, fun x hx => by cases hx; norm_num⟩
  exact ⟨p, k, h, hv, hn _ rfl⟩

/-- C120: a complex number becomes a complex parameter of its two parts, constants or floating. -/
theorem convert_complex (re im : ℚ) (a : ConvArgs) (n : Nat) :
    ∃ name r i k, convertToParameter true (.cplx re im) a n = (.ok (.complex name r i), k) ∧
      (∀ s, a.name = some s → name = s) ∧
      (a.preferConstant = true → r = .const (name ++ "_REALPART") re ∧ i = .const (name ++ "_IMAGPART") im) ∧
      (a.preferConstant = false → ∃ p q, r = .free p ∧ i = .free q ∧ p.value = re ∧ q.value = im ∧
        p.name = name ++ "_REALPART" ∧ q.name = name ++ "_IMAGPART" ∧ p.floating = true ∧ q.floating = true) := by
  cases h : a.preferConstant with
  | true =>
    refine ⟨_, _, _, _, by unfold convertToParameter; simp only [h, Bool.not_true]; rfl, ?_, fun _ => ⟨rfl, rfl⟩,
      fun h => by cases h⟩
    intro s hs
    rw [hs]
    rfl
  | false =>
    refine ⟨_, _, _, _, by unfold convertToParameter; simp only [h, Bool.not_true]; rfl, ?_, fun h => (by cases h),
      fun _ => ⟨_, _, rfl, rfl, rfl, rfl, rfl, rfl, rfl, rfl⟩⟩
    intro s hs
    rw [hs]
    rfl

private theorem toString_inj {n m : Nat} (h : toString n = toString m) : n = m := by
  have h' : Nat.ofDigitChars 10 (Nat.toDigits 10 n) 0 = Nat.ofDigitChars 10 (Nat.toDigits 10 m) 0 := by
    rw [Nat.toString_eq_ofList_toDigits, Nat.toString_eq_ofList_toDigits] at h
    have := congrArg String.toList h
    simp only [String.toList_ofList] at this
    rw [this]
  simpa using h'

/-- The prefixes of automatic names. -/
private def prefixes : List String := ["Composed_autoparam_", "FIXED_complex_autoparam_", "FIXED_autoparam_", "autoparam_"]

private theorem auto_inj {s t : String} (hs : s ∈ prefixes) (ht : t ∈ prefixes) {n m : Nat}
    (h : s ++ toString n = t ++ toString m) : n = m := by
  have hst : s = t := by
    have h' := congrArg String.toList h
    simp only [String.toList_append] at h'
    simp only [prefixes, List.mem_cons, List.not_mem_nil, or_false] at hs ht
    rcases hs with rfl | rfl | rfl | rfl <;> rcases ht with rfl | rfl | rfl | rfl <;> first | rfl | (exfalso; simp at h')
  subst hst
  exact toString_inj (by
    have h' := congrArg String.toList h
    simp only [String.toList_append, List.append_cancel_left_eq] at h'
    exact String.toList_inj.1 h')

private theorem convert_auto_name (auto : Bool) (v : In) (a : ConvArgs) (n : Nat) (ha : a.name = none) :
    (convertToParameter auto v a n).2 = n ∧ (∀ m, (convertToParameter auto v a n).1 = .ok m → m.newName = none) ∨
    (convertToParameter auto v a n).2 = n + 1 ∧ ∀ m s, (convertToParameter auto v a n).1 = .ok m → m.newName = some s →
      ∃ t ∈ prefixes, s = t ++ toString n := by
  cases v with
  | param id => exact Or.inl ⟨rfl, fun m h => by cases h; rfl⟩
  | «variable» => exact Or.inl ⟨rfl, fun m h => by cases h⟩
  | func =>
    cases hp : a.params with
    | true =>
      right
      simp only [convertToParameter, hp, if_true]
      refine ⟨trivial, fun m s h hs => ⟨"Composed_autoparam_", by simp [prefixes], ?_⟩⟩
      cases h
      exact (Option.some.inj hs).symm
    | false =>
      left
      simp only [convertToParameter, hp]
      exact ⟨rfl, fun m h => by cases h⟩
  | cplx re im =>
    cases auto with
    | false => exact Or.inl ⟨rfl, fun m h => by cases h; rfl⟩
    | true =>
      right
      cases hc : a.preferConstant with
      | true =>
        simp only [convertToParameter, hc, ha]
        refine ⟨rfl, fun m s h hs => ⟨"FIXED_complex_autoparam_", by simp [prefixes], ?_⟩⟩
        cases h
        exact (Option.some.inj hs).symm
      | false =>
        simp only [convertToParameter, hc, ha]
        refine ⟨rfl, fun m s h hs => ⟨"FIXED_complex_autoparam_", by simp [prefixes], ?_⟩⟩
        cases h
        exact (Option.some.inj hs).symm
  | num x =>
    cases auto with
    | false => exact Or.inl ⟨rfl, fun m h => by cases h; rfl⟩
    | true =>
      right
      cases hc : a.preferConstant with
      | true =>
        simp only [convertToParameter, hc, ha]
        refine ⟨rfl, fun m s h hs => ⟨"FIXED_autoparam_", by simp [prefixes], ?_⟩⟩
        cases h
        exact (Option.some.inj hs).symm
      | false =>
        simp only [convertToParameter, hc, ha, Bool.not_true, Bool.false_eq_true, if_false, Option.getD_none,
          Option.isSome_none]
        split
        · next p hp =>
          refine ⟨rfl, fun m s h hs => ⟨"autoparam_", by simp [prefixes], ?_⟩⟩
          cases h
          have hn : p.name = "autoparam_" ++ toString n := by
            unfold PObj.make PObj.setValue at hp
            split at hp
            · cases hp
            · cases hp
              rfl
          rw [← hn]
          exact (Option.some.inj hs).symm
        · exact ⟨rfl, fun m s h hs => by cases h⟩

private theorem convertAll_names (auto : Bool) : ∀ (l : List (In × ConvArgs)), (∀ p ∈ l, p.2.name = none) → ∀ n,
    ((convertAll auto l n).1.filterMap Made.newName).Nodup ∧
      ∀ s ∈ (convertAll auto l n).1.filterMap Made.newName, ∃ t ∈ prefixes, ∃ k ≥ n, s = t ++ toString k := by
  intro l
  induction l with
  | nil => intro _ n; exact ⟨List.nodup_nil, fun s hs => by cases hs⟩
  | cons p l ih =>
    intro h n
    obtain ⟨v, a⟩ := p
    have ha : a.name = none := h (v, a) List.mem_cons_self
    have ihr := ih (fun p hp => h p (List.mem_cons_of_mem _ hp)) (convertToParameter auto v a n).2
    have hge : n ≤ (convertToParameter auto v a n).2 := by
      rcases convert_auto_name auto v a n ha with ⟨h, -⟩ | ⟨h, -⟩ <;> omega
    simp only [convertAll]
    cases hr : (convertToParameter auto v a n).1 with
    | error e =>
      refine ⟨ihr.1, fun s hs => ?_⟩
      obtain ⟨t, ht, k, hk, hs⟩ := ihr.2 s hs
      exact ⟨t, ht, k, hge.trans hk, hs⟩
    | ok m =>
      simp only
      cases hm : m.newName with
      | none =>
        rw [List.filterMap_cons_none hm]
        refine ⟨ihr.1, fun s hs => ?_⟩
        obtain ⟨t, ht, k, hk, hs⟩ := ihr.2 s hs
        exact ⟨t, ht, k, hge.trans hk, hs⟩
      | some s =>
        rw [List.filterMap_cons_some hm]
        rcases convert_auto_name auto v a n ha with ⟨-, h0⟩ | ⟨h1, h2⟩
        · rw [h0 m hr] at hm
          cases hm
        · obtain ⟨t, ht, hst⟩ := h2 m s hr hm
          constructor
          · refine List.nodup_cons.2 ⟨fun hin => ?_, ihr.1⟩
            obtain ⟨t', ht', k, hk, hs'⟩ := ihr.2 s hin
            have := auto_inj ht ht' (hst.symm.trans hs')
            omega
          · intro s' hs'
            rcases List.mem_cons.1 hs' with rfl | hs'
            · exact ⟨t, ht, n, le_refl _, hst⟩
            · obtain ⟨t', ht', k, hk, hs''⟩ := ihr.2 s' hs'
              exact ⟨t', ht', k, hge.trans hk, hs''⟩

/-- C120: the automatic names are all different, in any sequence of conversions, up to the next reset. -/
theorem auto_names_distinct (auto : Bool) (l : List (In × ConvArgs)) (h : ∀ p ∈ l, p.2.name = none) (n : Nat) :
    ((convertAll auto l n).1.filterMap Made.newName).Nodup := (convertAll_names auto l h n).1

example : (convertAll true [(.num 1, {}), (.func, { params := true }), (.num 2, { preferConstant := false })] 9).1.filterMap
    Made.newName = ["FIXED_autoparam_9", "Composed_autoparam_10", "autoparam_11"] := by
  decide +kernel

/-- The `i`-th entries of the columns. -/
def Columns.entry (c : Columns) (pc : Bool) (i : Nat) : ConvArgs :=
  { name := c.name.bind (fun l => l[i]?), preferConstant := pc, lower := c.lower.bind (fun l => l[i]?),
    upper := c.upper.bind (fun l => l[i]?), stepsize := c.stepsize.bind (fun l => l[i]?) }

/-- C120: of a list of numbers the `i`-th one is converted with the `i`-th name, limits and step size; the list that is
returned has one entry for each. -/
theorem convert_rows (auto pc : Bool) (c : Columns) (n k : Nat) (ms : List Made) (hn : ∃ v ∈ c.value, v.isParam = false)
    (h : convertToParameters auto c pc n = (.ok ms, k)) :
    ms.length = c.value.length ∧ ∀ i (hi : i < c.value.length), ∃ m k k', ms[i]? = some m ∧
      convertToParameter auto c.value[i] (c.entry pc i) k = (.ok m, k') := by
  unfold convertToParameters at h
  rw [if_neg (by obtain ⟨v, hv, hp⟩ := hn; intro hall; rw [List.all_eq_true] at hall; rw [hall v hv] at hp; cases hp)] at h
  split at h
  · cases (Prod.mk.inj h).1
  · split at h
    · cases (Prod.mk.inj h).1
    · have key : ∀ (vs : List In) (j n k : Nat) (ms : List Made), convertRows auto pc c vs j n = (.ok ms, k) →
          ms.length = vs.length ∧ ∀ i (hi : i < vs.length), ∃ m k k', ms[i]? = some m ∧
            convertToParameter auto vs[i] (c.entry pc (j + i)) k = (.ok m, k') := by
        intro vs
        induction vs with
        | nil =>
          intro j n k ms h
          cases (Prod.mk.inj h).1
          exact ⟨rfl, fun i hi => absurd hi (by simp)⟩
        | cons v vs ih =>
          intro j n k ms h
          simp only [convertRows] at h
          rw [← Columns.entry] at h
          split at h
          · cases (Prod.mk.inj h).1
          · next m hm =>
            have h1 := (Prod.mk.inj h).1
            cases hs : (convertRows auto pc c vs (j + 1) (convertToParameter auto v (c.entry pc j) n).2).1 with
            | error e => rw [hs] at h1; cases h1
            | ok ms' =>
              rw [hs] at h1
              cases h1
              obtain ⟨hl, hi⟩ := ih (j + 1) _ _ ms' (Prod.ext hs rfl)
              refine ⟨by simp [hl], ?_⟩
              intro i hlt
              cases i with
              | zero => exact ⟨m, n, _, rfl, Prod.ext hm rfl⟩
              | succ i =>
                obtain ⟨m', k1, k2, h1, h2⟩ := hi i (by simpa using hlt)
                refine ⟨m', k1, k2, by simpa using h1, ?_⟩
                rw [show j + 1 + i = j + (i + 1) by omega] at h2
                simpa using h2
      have := key c.value 0 n k ms h
      simpa using this

example : ∃ ms k, convertToParameters true { value := [.num 1, .num 2], name := some ["a", "b"] } true 0 = (.ok ms, k) ∧
    ms = [.const "a" 1, .const "b" 2] := ⟨_, _, rfl, rfl⟩

/-- C120: parameters are returned as they are; a mixture of parameters and numbers, and columns of different lengths, are
rejected before anything is made. -/
theorem convert_rejected (auto pc : Bool) (c : Columns) (n : Nat) :
    ((∃ v ∈ c.value, v.isParam = true) → (∃ v ∈ c.value, v.isParam = false) →
      convertToParameters auto c pc n = (.error .valueError, n)) ∧
    ((∃ v ∈ c.value, v.isParam = false) →
      ((∃ l, c.name = some l ∧ l.length ≠ c.value.length) ∨ (∃ l, c.lower = some l ∧ l.length ≠ c.value.length) ∨
        (∃ l, c.upper = some l ∧ l.length ≠ c.value.length) ∨ (∃ l, c.stepsize = some l ∧ l.length ≠ c.value.length)) →
      convertToParameters auto c pc n = (.error .valueError, n)) ∧
    (∀ ids : List Nat, c.value = ids.map .param → convertToParameters auto c pc n = (.ok (ids.map .same), n)) := by
  have hall : (∃ v ∈ c.value, v.isParam = false) → ¬ c.value.all In.isParam = true := by
    rintro ⟨v, hv, hp⟩ hall
    rw [List.all_eq_true] at hall
    rw [hall v hv] at hp
    cases hp
  refine ⟨fun h1 h2 => ?_, fun h1 h2 => ?_, fun ids h => ?_⟩
  · unfold convertToParameters
    rw [if_neg (hall h2), if_pos (by rw [List.any_eq_true]; exact h1)]
  · unfold convertToParameters
    rw [if_neg (hall h1)]
    split
    · rfl
    · rw [if_pos]
      unfold Columns.consistent
      rcases h2 with ⟨l, hl, hne⟩ | ⟨l, hl, hne⟩ | ⟨l, hl, hne⟩ | ⟨l, hl, hne⟩ <;>
      · simp only [hl]
        simp [hne]
  · unfold convertToParameters
    rw [if_pos (by rw [h, List.all_eq_true]; intro v hv; obtain ⟨i, -, rfl⟩ := List.mem_map.1 hv; rfl), h, List.map_map]
    rfl

/-- C121: with `prefer_constant=False` (as when minimising a function of numbers) the limits of a real number are those
of the parameter: no value that is accepted by it is outside by more than the tolerance. Missing from the full claim: the cases of
`convert_limits_violated`, `convert_complex_limits_violated`. -/
theorem convert_limits_partial (v : ℚ) (a : ConvArgs) (h : a.preferConstant = false) (n k : Nat) (m : Made)
    (hm : convertToParameter true (.num v) a n = (.ok m, k)) :
    ∃ p, m = .free p ∧ p.lower = a.lower.getD .inf ∧ p.upper = a.upper.getD .inf ∧
      p.stepsize = a.stepsize.getD (1 / 100) := by
  simp only [convertToParameter, h, Bool.not_true, Bool.false_eq_true, if_false] at hm
  split at hm
  · next p hp =>
    cases (Prod.mk.inj hm).1
    refine ⟨p, rfl, ?_⟩
    unfold PObj.make PObj.setValue at hp
    split at hp
    · cases hp
    · cases hp
      exact ⟨rfl, rfl, rfl⟩
  · cases (Prod.mk.inj hm).1

/-- C121 fails by default: the limits are ignored, also if the value is outside of them. -/
theorem convert_limits_violated (v : ℚ) (lower upper : Option Lim) (n : Nat) :
    convertToParameter true (.num v) { name := some "a", lower := lower, upper := upper } n = (.ok (.const "a" v), n) := rfl

/-- C121 fails for complex numbers: the parts are floating without limits and step size. -/
theorem convert_complex_limits_violated (re im : ℚ) (lower upper : Option Lim) (size : Option ℚ) (n : Nat) :
    ∃ r i, convertToParameter true (.cplx re im)
      { name := some "a", preferConstant := false, lower := lower, upper := upper, stepsize := size } n
        = (.ok (.complex "a" (.free r) (.free i)), n) ∧ r.hasLimits = false ∧ i.hasLimits = false ∧
          r.hasStepsize = false := ⟨_, _, rfl, rfl, rfl, rfl⟩

end Zfit.Args
