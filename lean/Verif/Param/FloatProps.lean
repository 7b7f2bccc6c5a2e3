import Verif.Param.FloatModel

/-!
# C296, C297: parameters in double precision
-/

namespace Zfit.ParF

open Zfit

variable {rnd : ℚ → ℚ}

/-! ### Specification -/

/-- The limits are numbers in double precision, the lower one below the upper one. -/
structure Proper (p : FParam) : Prop where
  lower : ∀ l, p.lower = some l → Rep 53 l
  upper : ∀ u, p.upper = some u → Rep 53 u
  order : ∀ l u, p.lower = some l → p.upper = some u → l < u

/-- The number is within the limits. -/
def Within (p : FParam) (v : ℚ) : Prop := (∀ l, p.lower = some l → l ≤ v) ∧ (∀ u, p.upper = some u → v ≤ u)

/-- The number is strictly within the limits. -/
def Inside (p : FParam) (v : ℚ) : Prop := (∀ l, p.lower = some l → l < v) ∧ (∀ u, p.upper = some u → v < u)

/-! ### Lemmas -/

theorem rnd_zero (h : Rounding 53 rnd) : rnd 0 = 0 := h.fix rep_zero

theorem rnd_nonneg (h : Rounding 53 rnd) {x : ℚ} (hx : 0 ≤ x) : 0 ≤ rnd x := by
  have := h.mono hx
  rwa [rnd_zero h] at this

theorem tol_nonneg (h : Rounding 53 rnd) (p : FParam) : 0 ≤ p.tol rnd := by
  unfold FParam.tol
  split
  · exact le_min (rnd_nonneg h (mul_nonneg (abs_nonneg _) (rnd_nonneg h (by norm_num)))) (rnd_nonneg h (by norm_num))
  · exact rnd_nonneg h (by norm_num)

theorem small_upper (h : Rounding 53 rnd) : rnd (1 / 10000000) ≤ 7 / 2 ^ 26 := by
  have hr : Rep 53 (7 / 2 ^ 26) := ⟨7, -26, by norm_num, by norm_num⟩
  have := h.mono (show (1 / 10000000 : ℚ) ≤ 7 / 2 ^ 26 by norm_num)
  rwa [h.fix hr] at this

theorem small_lower (h : Rounding 53 rnd) : 1 / 2 ^ 24 ≤ rnd (1 / 10000000) := by
  have hr : Rep 53 (1 / 2 ^ 24) := ⟨1, -24, by norm_num, by norm_num⟩
  have := h.mono (show (1 / 2 ^ 24 : ℚ) ≤ 1 / 10000000 by norm_num)
  rwa [h.fix hr] at this

theorem tol_le (h : Rounding 53 rnd) (p : FParam) : p.tol rnd ≤ 7 / 2 ^ 26 := by
  unfold FParam.tol
  split
  · exact le_trans (min_le_right _ _) (small_upper h)
  · exact small_upper h

/-- What `set_value` does in eager mode with a finite value. -/
theorem setEager_fin (h : Rounding 53 rnd) (p : FParam) (v : ℚ) :
    p.setEager rnd (.fin v) =
      if (∃ l, p.lower = some l ∧ v ≤ rnd (l - p.tol rnd)) ∨ (∃ u, p.upper = some u ∧ rnd (u + p.tol rnd) ≤ v) then .error .valueError
      else .ok (p.assign (.fin v)) := by
  unfold FParam.setEager FParam.atLimit FParam.lowerF FParam.upperF FParam.hasLimits
  rcases hl : p.lower with _ | l <;> rcases hu : p.upper with _ | u <;>
    simp [Fl.le, Fl.sub, Fl.add, Fl.neg, ← sub_eq_add_neg]

/-! ### C296 -/

/-- C296 (partial): every number strictly within the limits can be set, in eager and in graph mode, and is what `value()` returns.
Missing from the full claim: the limits themselves, see `set_at_limit_partial` and the violations. -/
theorem set_inside_partial (h : Rounding 53 rnd) (p : FParam) (hp : Proper p) (v : ℚ) (hv : Rep 53 v) (hi : Inside p v) :
    p.setEager rnd (.fin v) = .ok (p.assign (.fin v)) ∧ p.setGraph (.fin v) = .ok (p.assign (.fin v)) ∧
      (p.assign (.fin v)).value rnd = .fin v := by
  have ht := tol_nonneg h p
  refine ⟨?_, ?_, ?_⟩
  · rw [setEager_fin h, if_neg]
    rintro (⟨l, hl, hc⟩ | ⟨u, hu, hc⟩)
    · have := h.mono (show l - p.tol rnd ≤ l by linarith)
      rw [h.fix (hp.lower l hl)] at this
      linarith [hi.1 l hl]
    · have := h.mono (show u ≤ u + p.tol rnd by linarith)
      rw [h.fix (hp.upper u hu)] at this
      linarith [hi.2 u hu]
  · unfold FParam.setGraph FParam.lowerF FParam.upperF FParam.hasLimits
    obtain ⟨h1, h2⟩ := hi
    rcases hl : p.lower with _ | l <;> rcases hu : p.upper with _ | u <;> simp [Fl.lt]
    · exact h2 u hu
    · exact h1 l hl
    · exact ⟨h1 l hl, h2 u hu⟩
  · obtain ⟨h1, h2⟩ := hi
    unfold FParam.value FParam.lowerF FParam.upperF FParam.hasLimits FParam.assign clipF
    rcases hl : p.lower with _ | l <;> rcases hu : p.upper with _ | u <;> simp [Fl.lt, Fl.sub, Fl.add, Fl.neg]
    · rw [if_neg (not_lt.2 (h2 u hu).le)]
      simp [Fl.add, rnd_zero h, h.fix hv]
    · rw [if_neg (not_lt.2 (h1 l hl).le)]
      simp [Fl.add, rnd_zero h, h.fix hv]
    · rw [if_neg (not_lt.2 (h2 u hu).le)]
      simp only [Fl.lt]
      rw [if_neg (by simpa using (h1 l hl).le)]
      simp [Fl.add, rnd_zero h, h.fix hv]

/-- `value()` of a finite stored number within the limits is this number. -/
theorem value_within (h : Rounding 53 rnd) (p : FParam) (v : ℚ) (hv : Rep 53 v) (hs : p.stored = .fin v) (hw : Within p v) :
    p.value rnd = .fin v := by
  obtain ⟨h1, h2⟩ := hw
  unfold FParam.value FParam.lowerF FParam.upperF FParam.hasLimits clipF
  rw [hs]
  rcases hl : p.lower with _ | l <;> rcases hu : p.upper with _ | u <;> simp [Fl.lt, Fl.sub, Fl.add, Fl.neg]
  · rw [if_neg (not_lt.2 (h2 u hu))]
    simp [Fl.add, rnd_zero h, h.fix hv]
  · rw [if_neg (not_lt.2 (h1 l hl))]
    simp [Fl.add, rnd_zero h, h.fix hv]
  · rw [if_neg (not_lt.2 (h2 u hu))]
    simp only [Fl.lt]
    rw [if_neg (by simpa using (h1 l hl))]
    simp [Fl.add, rnd_zero h, h.fix hv]

/-- If the limits are at least 1 apart, the tolerance is that of 1e-7. -/
theorem tol_wide (h : Rounding 53 rnd) (p : FParam) (hp : ∀ l u, p.lower = some l → p.upper = some u → l + 1 ≤ u) :
    1 / 2 ^ 24 ≤ p.tol rnd := by
  unfold FParam.tol
  split
  · rename_i l u hl hu
    refine le_min ?_ (small_lower h)
    have h1 : 1 ≤ |rnd (u - l)| := by
      have := h.mono (show 1 ≤ u - l by linarith [hp l u hl hu])
      rw [h.fix ⟨1, 0, by norm_num, by norm_num⟩] at this
      exact le_trans this (le_abs_self _)
    have h2 : 1 / 2 ^ 24 ≤ rnd (1 / 100000) := le_trans (small_lower h) (h.mono (by norm_num))
    have hr : Rep 53 (1 / 2 ^ 24) := ⟨1, -24, by norm_num, by norm_num⟩
    have := h.mono (show (1 / 2 ^ 24 : ℚ) ≤ |rnd (u - l)| * rnd (1 / 100000) by nlinarith)
    rwa [h.fix hr] at this
  · exact small_lower h

/-- A moderate number and what is above it by the tolerance are not rounded to the same number. -/
theorem moderate (h : Rounding 53 rnd) (x t : ℚ) (hx : |x| ≤ 2 ^ 28) (ht : 1 / 2 ^ 24 ≤ t) : x < rnd (x + t) := by
  set n : ℤ := ⌊x * 2 ^ 24⌋ + 1 with hn
  have h1 : x * 2 ^ 24 < n := by
    rw [hn]
    push_cast
    exact Int.lt_floor_add_one _
  have h2 : (n : ℚ) ≤ x * 2 ^ 24 + 1 := by
    rw [hn]
    push_cast
    linarith [Int.floor_le (x * 2 ^ 24)]
  have habs := abs_le.1 hx
  have hr : Rep 53 ((n : ℚ) / 2 ^ 24) := by
    refine ⟨n, -24, ?_, by rw [zpow_neg, ← div_eq_mul_inv]; norm_num⟩
    have h3 : (n : ℚ) < 2 ^ 53 := by linarith [habs.2]
    have h4 : -(2 ^ 53 : ℚ) < n := by linarith [habs.1]
    exact abs_lt.2 ⟨by exact_mod_cast h4, by exact_mod_cast h3⟩
  have h5 : (n : ℚ) / 2 ^ 24 ≤ x + t := by
    rw [div_le_iff₀ (by positivity)]
    nlinarith
  have h6 := h.mono h5
  rw [h.fix hr] at h6
  refine lt_of_lt_of_le ?_ h6
  rw [lt_div_iff₀ (by positivity)]
  exact h1

/-- Rounding to the nearest of the mirrored numbers is a rounding to the nearest. -/
theorem Rounding.mirror (h : Rounding 53 rnd) : Rounding 53 (fun x => -rnd (-x)) where
  rep x := (h.rep (-x)).neg
  near x r hr := by
    have := h.near (-x) (-r) hr.neg
    rw [show -rnd (-x) - x = -(rnd (-x) - -x) by ring, abs_neg, show r - x = -(-r - -x) by ring, abs_neg]
    exact this

/-- C296 (partial): a limit of moderate size can be set in eager mode if the other limit is not too close, and is what `value()` returns.
Missing from the full claim: large limits, close limits and graph mode, see the violations. -/
theorem set_at_limit_partial (h : Rounding 53 rnd) (p : FParam) (hp : Proper p) (v : ℚ) (hv : p.lower = some v ∨ p.upper = some v)
    (hsize : |v| ≤ 2 ^ 28) (hwide : ∀ l u, p.lower = some l → p.upper = some u → l + 1 ≤ u) :
    p.setEager rnd (.fin v) = .ok (p.assign (.fin v)) ∧ (p.assign (.fin v)).value rnd = .fin v := by
  have ht := tol_wide h p hwide
  have hw : Within p v := by
    rcases hv with hv | hv
    · refine ⟨fun l hl => ?_, fun u hu => by linarith [hwide v u hv hu]⟩
      rw [hv] at hl
      cases hl
      exact le_rfl
    · refine ⟨fun l hl => by linarith [hwide l v hl hv], fun u hu => ?_⟩
      rw [hv] at hu
      cases hu
      exact le_rfl
  have hrep : Rep 53 v := by
    rcases hv with hv | hv
    · exact hp.lower v hv
    · exact hp.upper v hv
  refine ⟨?_, value_within h _ v hrep rfl hw⟩
  rw [setEager_fin h, if_neg]
  have hup : v < rnd (v + p.tol rnd) := moderate h v _ hsize ht
  have hlow : rnd (v - p.tol rnd) < v := by
    have := moderate h.mirror (-v) _ (by rwa [abs_neg]) ht
    rw [show -(-v + p.tol rnd) = v - p.tol rnd by ring] at this
    linarith
  rintro (⟨l, hl, hc⟩ | ⟨u, hu, hc⟩)
  · have := h.mono (show l - p.tol rnd ≤ v - p.tol rnd by linarith [hw.1 l hl])
    linarith
  · have := h.mono (show v + p.tol rnd ≤ u + p.tol rnd by linarith [hw.2 u hu])
    linarith

/-- C296: what is outside of the limits by more than 1.1e-7 is refused, in eager mode with the parameter as it was. -/
theorem set_outside (h : Rounding 53 rnd) (p : FParam) (v : ℚ) (hv : Rep 53 v)
    (ho : (∃ l, p.lower = some l ∧ v < l - 11 / 10 ^ 8) ∨ (∃ u, p.upper = some u ∧ u + 11 / 10 ^ 8 < v)) :
    p.setEager rnd (.fin v) = .error .valueError ∧ p.setGraph (.fin v) = .error .invalidArgument := by
  have ht := tol_le h p
  constructor
  · rw [setEager_fin h, if_pos]
    rcases ho with ⟨l, hl, hc⟩ | ⟨u, hu, hc⟩
    · left
      refine ⟨l, hl, ?_⟩
      have := h.mono (show v ≤ l - p.tol rnd by norm_num at ht hc ⊢; linarith)
      rwa [h.fix hv] at this
    · right
      refine ⟨u, hu, ?_⟩
      have := h.mono (show u + p.tol rnd ≤ v by norm_num at ht hc ⊢; linarith)
      rwa [h.fix hv] at this
  · unfold FParam.setGraph FParam.lowerF FParam.upperF FParam.hasLimits
    rcases ho with ⟨l, hl, hc⟩ | ⟨u, hu, hc⟩
    · rw [hl]
      have : ¬ l < v := by
        norm_num at hc
        linarith
      simp [Fl.lt, this]
    · rw [hu]
      have : ¬ v < u := by
        norm_num at hc
        linarith
      simp [Fl.lt, this]

/-- C296: infinite values are refused as soon as there is a limit. -/
theorem set_infinite (p : FParam) (hl : p.hasLimits = true) (v : Fl) (hv : v = .pinf ∨ v = .ninf) :
    p.setEager rnd v = .error .valueError ∧ p.setGraph v = .error .invalidArgument := by
  unfold FParam.setEager FParam.setGraph FParam.atLimit FParam.lowerF FParam.upperF
  rw [hl]
  rcases hv with rfl | rfl <;> rcases p.lower with _ | l <;> rcases p.upper with _ | u <;>
    simp [Fl.le, Fl.lt, Fl.sub, Fl.add, Fl.neg]

/-- C296 is violated: NaN can be set in eager mode, whatever the limits, and is the value; graph mode refuses it. -/
theorem set_nan_violated (p : FParam) (hl : p.hasLimits = true) :
    p.setEager rnd .nan = .ok (p.assign .nan) ∧ (p.assign .nan).value rnd = .nan ∧ p.setGraph .nan = .error .invalidArgument := by
  refine ⟨?_, ?_, ?_⟩
  · unfold FParam.setEager FParam.atLimit
    rcases p.lowerF.sub rnd (.fin (p.tol rnd)) with _ | _ | _ | _ <;>
      rcases p.upperF.add rnd (.fin (p.tol rnd)) with _ | _ | _ | _ <;> simp [Fl.le]
  · have : (p.assign .nan).hasLimits = true := hl
    unfold FParam.value
    rw [this]
    rfl
  · unfold FParam.setGraph FParam.lowerF FParam.upperF
    rw [hl]
    rcases p.lower with _ | l <;> rcases p.upper with _ | u <;> simp [Fl.lt]

/-- The tolerance is lost in the rounding of a large number. -/
theorem absorbed (h : Rounding 53 rnd) (u t : ℚ) (hu : Rep 53 u) (hbig : 2 ^ 30 ≤ u) (ht : 0 ≤ t) (ht' : t ≤ 7 / 2 ^ 26) : rnd (u + t) = u := by
  have hge : u ≤ rnd (u + t) := by
    have := h.mono (show u ≤ u + t by linarith)
    rwa [h.fix hu] at this
  have hnear := h.near (u + t) u hu
  rw [show u - (u + t) = -t by ring, abs_neg, abs_of_nonneg ht] at hnear
  have hle : rnd (u + t) - u ≤ 2 * t := by linarith [(abs_le.1 hnear).2]
  have hmul : ∀ q : ℚ, Rep 53 q → 2 ^ 30 ≤ q → ∃ n : ℤ, q = n * (1 / 2 ^ 22) := by
    intro q hq hb
    obtain ⟨n, hn⟩ := hq.multiple (k := -23) (by
      have : (2 : ℚ) ^ (((53 : ℕ) : ℤ) + (-23)) = 2 ^ 30 := by norm_num
      rw [this]
      exact le_trans hb (le_abs_self _))
    refine ⟨n, ?_⟩
    rw [hn]
    congr 1
    norm_num
  obtain ⟨m, hm⟩ := hmul u hu hbig
  obtain ⟨n, hn⟩ := hmul _ (h.rep (u + t)) (le_trans hbig hge)
  have hd : ((n - m : ℤ) : ℚ) < 1 := by
    have : ((n : ℚ) - m) * (1 / 2 ^ 22) ≤ 2 * t := by
      rw [sub_mul, ← hn, ← hm]
      exact hle
    push_cast
    norm_num at this ht'
    linarith
  have hd' : (0 : ℚ) ≤ ((n - m : ℤ) : ℚ) := by
    have : 0 ≤ ((n : ℚ) - m) * (1 / 2 ^ 22) := by
      rw [sub_mul, ← hn, ← hm]
      linarith
    push_cast
    norm_num at this
    linarith
  have h1 : n - m < 1 := by exact_mod_cast hd
  have h2 : 0 ≤ n - m := by exact_mod_cast hd'
  rw [hn, hm, show n = m by omega]

/-- C296 is violated: an upper limit of at least `2 ^ 30` can not be set, not even by a parameter that has this value (as at the end of a
`with` block), nor can a parameter be created with it. -/
theorem set_big_limit_violated (h : Rounding 53 rnd) (p : FParam) (u : ℚ) (hu : p.upper = some u) (hr : Rep 53 u) (hbig : 2 ^ 30 ≤ u)
    (hl : ∀ l, p.lower = some l → l ≤ u) :
    p.setEager rnd (.fin u) = .error .valueError ∧ FParam.make rnd (.fin u) p.lower p.upper = .error .valueError ∧
      (p.assign (.fin u)).setEager rnd ((p.assign (.fin u)).value rnd) = .error .valueError := by
  have key : ∀ q : FParam, q.upper = some u → q.setEager rnd (.fin u) = .error .valueError := by
    intro q hq
    rw [setEager_fin h, if_pos]
    right
    exact ⟨u, hq, (absorbed h u _ hr hbig (tol_nonneg h q) (tol_le h q)).le⟩
  refine ⟨key p hu, key _ hu, ?_⟩
  rw [value_within h (p.assign (.fin u)) u hr rfl ⟨hl, fun u' hu' => by
    have : p.upper = some u' := hu'
    rw [hu] at this
    cases this
    exact le_rfl⟩]
  exact key _ hu

/-- C296 is violated: a parameter with equal limits can not be created. -/
theorem set_equal_limits_violated (h : Rounding 53 rnd) (v : ℚ) (hv : Rep 53 v) :
    FParam.make rnd (.fin v) (some v) (some v) = .error .valueError := by
  unfold FParam.make
  rw [setEager_fin h, if_pos]
  right
  refine ⟨v, rfl, ?_⟩
  have : FParam.tol rnd ⟨some v, some v, .fin v⟩ = 0 := by
    simp only [FParam.tol, sub_self, rnd_zero h, abs_zero, zero_mul]
    exact min_eq_left (rnd_nonneg h (by norm_num))
  rw [this, add_zero, h.fix hv]

/-- C296 is violated: graph mode refuses the limits. -/
theorem set_graph_violated (p : FParam) (v : ℚ) (hv : p.lower = some v ∨ p.upper = some v) :
    p.setGraph (.fin v) = .error .invalidArgument := by
  unfold FParam.setGraph FParam.lowerF FParam.upperF FParam.hasLimits
  rcases hv with hv | hv <;> rw [hv] <;> simp [Fl.lt]

/-- Limits that meet the hypotheses, for every rounding to the nearest; there is one. -/
example : (∃ rnd, Rounding 53 rnd) ∧ Proper ⟨some 0, some (2 ^ 31), .fin 1⟩ ∧ Inside ⟨some 0, some (2 ^ 31), .fin 1⟩ 1 := by
  refine ⟨exists_rounding (by norm_num), ⟨?_, ?_, ?_⟩, ?_, ?_⟩
  · rintro l ⟨⟩
    exact rep_zero
  · rintro u ⟨⟩
    exact ⟨1, 31, by norm_num, by norm_num⟩
  · rintro l u ⟨⟩ ⟨⟩
    norm_num
  · rintro l ⟨⟩
    norm_num
  · rintro u ⟨⟩
    norm_num

/-! ### C297 -/

/-- The clipped number. -/
def clipped (p : FParam) (v : ℚ) : ℚ :=
  let w := match p.upper with | some u => min v u | none => v
  match p.lower with | some l => max w l | none => w

theorem value_fin (h : Rounding 53 rnd) (p : FParam) (v : ℚ) (hv : Rep 53 v) (hs : p.stored = .fin v) :
    p.value rnd = .fin (rnd (v + rnd (clipped p v - v))) := by
  unfold FParam.value FParam.lowerF FParam.upperF FParam.hasLimits clipF clipped
  rw [hs]
  rcases p.lower with _ | l <;> rcases p.upper with _ | u <;> simp [Fl.lt, Fl.sub, Fl.neg]
  · simp [rnd_zero h, h.fix hv]
  · rcases lt_or_ge u v with hc | hc
    · simp [Fl.add, sub_eq_add_neg, hc, min_eq_right hc.le]
    · simp [Fl.add, sub_eq_add_neg, not_lt.2 hc, min_eq_left hc]
  · split_ifs with hc
    · simp [Fl.add, sub_eq_add_neg, max_eq_right hc.le]
    · simp [Fl.add, sub_eq_add_neg, max_eq_left (not_lt.1 hc)]
  · split_ifs with hc hd hd <;> simp only [decide_eq_true_eq, not_lt] at hd
    · simp [Fl.add, sub_eq_add_neg, min_eq_right hc.le, max_eq_right hd.le]
    · simp [Fl.add, sub_eq_add_neg, min_eq_right hc.le, max_eq_left hd]
    · simp [Fl.add, sub_eq_add_neg, min_eq_left (not_lt.1 hc), max_eq_right hd.le]
    · simp [Fl.add, sub_eq_add_neg, min_eq_left (not_lt.1 hc), max_eq_left hd]

theorem clipped_rep (p : FParam) (hp : Proper p) (v : ℚ) (hv : Rep 53 v) : Rep 53 (clipped p v) := by
  unfold clipped
  have hw : Rep 53 (match p.upper with | some u => min v u | none => v) := by
    rcases hu : p.upper with _ | u
    · exact hv
    · rcases min_choice v u with h | h <;> simp only [h]
      · exact hv
      · exact hp.upper u hu
  rcases hl : p.lower with _ | l
  · exact hw
  · simp only
    rcases max_choice (match p.upper with | some u => min v u | none => v) l with h | h <;> rw [h]
    · exact hw
    · exact hp.lower l hl

/-- C297 (partial): after `assign(v)`, `value()` is `v` clipped to the limits if `v` is within them, if it is clipped to zero, or if it
differs from the limit at most by a factor of two.
Missing from the full claim: values that are further away, see `value_far_violated`, and infinite values. -/
theorem value_clipped_partial (h : Rounding 53 rnd) (p : FParam) (hp : Proper p) (v : ℚ) (hv : Rep 53 v)
    (hc : clipped p v = v ∨ clipped p v = 0 ∨ (|clipped p v - v| ≤ |v| ∧ |clipped p v - v| ≤ |clipped p v|)) :
    (p.assign (.fin v)).value rnd = .fin (clipped p v) := by
  have hcl : clipped (p.assign (.fin v)) v = clipped p v := rfl
  rw [value_fin h (p.assign (.fin v)) v hv rfl, hcl]
  have hrep := clipped_rep p hp v hv
  have hd : Rep 53 (clipped p v - v) := by
    rcases hc with hc | hc | ⟨h1, h2⟩
    · rw [hc, sub_self]
      exact rep_zero
    · rw [hc, zero_sub]
      exact hv.neg
    · exact sterbenz hv hrep h1 h2
  rw [h.fix hd, add_sub_cancel, h.fix hrep]

/-- C297 (partial): in general the error is at most a few bits of the largest of the numbers involved.
Missing from the full claim: that `value()` is the clipped value, see `value_far_violated`. -/
theorem value_error_partial (h : Rounding 53 rnd) (p : FParam) (v : ℚ) (hv : Rep 53 v) :
    ∃ y, (p.assign (.fin v)).value rnd = .fin y ∧ |y - clipped p v| ≤ (|clipped p v| + |clipped p v - v|) / 2 ^ 52 := by
  have hcl : clipped (p.assign (.fin v)) v = clipped p v := rfl
  refine ⟨_, value_fin h (p.assign (.fin v)) v hv rfl, ?_⟩
  rw [hcl]
  set c := clipped p v
  have e1 := h.err (by norm_num) (c - v)
  have e2 := h.err (by norm_num) (v + rnd (c - v))
  have t1 : |v + rnd (c - v)| ≤ |c| + |rnd (c - v) - (c - v)| := by
    have := abs_add_le c (rnd (c - v) - (c - v))
    rwa [show c + (rnd (c - v) - (c - v)) = v + rnd (c - v) by ring] at this
  have t2 : |rnd (v + rnd (c - v)) - c| ≤ |rnd (v + rnd (c - v)) - (v + rnd (c - v))| + |rnd (c - v) - (c - v)| := by
    have := abs_add_le (rnd (v + rnd (c - v)) - (v + rnd (c - v))) (rnd (c - v) - (c - v))
    rwa [show rnd (v + rnd (c - v)) - (v + rnd (c - v)) + (rnd (c - v) - (c - v)) = rnd (v + rnd (c - v)) - c by ring] at this
  have n1 := abs_nonneg (c - v)
  have n3 := abs_nonneg c
  have n2 := abs_nonneg (rnd (c - v) - (c - v))
  rw [le_div_iff₀ (by positivity)]
  norm_num at e1 e2 ⊢
  linarith

/-- C297 is violated: with limits 1 and 2, after `assign(2.0**60)` the value is 0. -/
theorem value_far_violated (h : Rounding 53 rnd) : (FParam.assign ⟨some 1, some 2, .fin 1⟩ (.fin (2 ^ 60))).value rnd = .fin 0 := by
  rw [value_fin h _ (2 ^ 60) ⟨1, 60, by norm_num, by norm_num⟩ rfl]
  have hc : clipped (FParam.assign ⟨some 1, some 2, .fin 1⟩ (.fin (2 ^ 60))) (2 ^ 60) = 2 := by
    simp [clipped, FParam.assign]
    norm_num
  rw [hc]
  have hr : rnd (2 - 2 ^ 60) = -2 ^ 60 := by
    have hrep : Rep 53 (-2 ^ 60) := Rep.neg ⟨1, 60, by norm_num, by norm_num⟩
    have hn := h.near (2 - 2 ^ 60) (-2 ^ 60) hrep
    norm_num at hn
    have hb := abs_le.1 hn
    obtain ⟨n, hm⟩ := (h.rep (2 - 2 ^ 60)).multiple (k := 6) (by
      have : rnd (2 - 2 ^ 60) < 0 := by
        norm_num
        linarith [hb.2]
      rw [abs_of_neg this]
      norm_num
      linarith [hb.2])
    norm_num at hm hb
    rw [hm] at hb
    have h1 : (n : ℚ) < -9007199254740992 + 1 := by linarith [hb.2]
    have h2 : -9007199254740992 - 1 < (n : ℚ) := by linarith [hb.1]
    have h1' : n < -9007199254740992 + 1 := by exact_mod_cast h1
    have h2' : -9007199254740992 - 1 < n := by exact_mod_cast h2
    have h3 : n = -9007199254740992 := by omega
    norm_num
    rw [hm, h3]
    norm_num
  rw [hr, add_neg_cancel, rnd_zero h]

/-- C297 is violated: after `assign` of an infinite number `value()` is NaN as soon as there is a limit. -/
theorem value_infinite_violated (p : FParam) (hl : p.hasLimits = true) (v : Fl) (hv : v = .pinf ∨ v = .ninf) :
    (p.assign v).value rnd = .nan := by
  have h' : (p.assign v).hasLimits = true := hl
  unfold FParam.value
  rw [h', if_pos rfl]
  unfold FParam.lowerF FParam.upperF FParam.assign clipF
  rcases hv with rfl | rfl <;> rcases p.lower with _ | l <;> rcases p.upper with _ | u <;>
    simp [Fl.lt, Fl.sub, Fl.neg, Fl.add]
  by_cases hul : u < l <;> simp [hul]

/-- A value that is clipped exactly. -/
example : clipped ⟨some 1, some 2, .fin 1⟩ 3 = 2 ∧ |clipped ⟨some 1, some 2, .fin 1⟩ 3 - 3| ≤ |(3 : ℚ)| := by
  constructor
  · simp [clipped]
    norm_num
  · simp [clipped]
    norm_num

end Zfit.ParF
