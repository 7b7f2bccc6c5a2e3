import Verif.Phys.Model
import Mathlib.Analysis.SpecialFunctions.Integrals.Basic
import Mathlib.MeasureTheory.Integral.IntervalIntegral.FundThmCalculus
import Mathlib.Tactic.FieldSimp
import Mathlib.Tactic.Positivity
import Mathlib.Tactic.Linarith

/-! Helper lemmas about the Crystal Ball family, in the reduced variable `t`. -/

namespace Zfit.Phys

open intervalIntegral

/-- The Gaussian core in the reduced variable. -/
theorem gauss_integral (a b : ℝ) :
    ∫ t in a..b, Real.exp (-0.5 * t ^ 2) = Real.sqrt (Real.pi / 2) * (erf (b / Real.sqrt 2) - erf (a / Real.sqrt 2)) := by
  have h2 : (0 : ℝ) < Real.sqrt 2 := Real.sqrt_pos.2 (by norm_num)
  have hpi : (0 : ℝ) < Real.sqrt Real.pi := Real.sqrt_pos.2 Real.pi_pos
  have hc : Continuous fun t : ℝ => Real.exp (-t ^ 2) := by fun_prop
  have e : (fun t : ℝ => Real.exp (-0.5 * t ^ 2)) = fun t => (fun s => Real.exp (-s ^ 2)) (t / Real.sqrt 2) := by
    funext t
    simp only
    congr 1
    rw [div_pow, Real.sq_sqrt (by norm_num)]
    ring
  rw [e, integral_comp_div (fun s => Real.exp (-s ^ 2)) h2.ne', smul_eq_mul]
  unfold erf
  rw [← mul_sub, integral_interval_sub_left (hc.intervalIntegrable _ _) (hc.intervalIntegrable _ _), ← mul_assoc]
  congr 1
  rw [Real.sqrt_div Real.pi_pos.le]
  field_simp
  exact Real.sq_sqrt (by norm_num)

/-- The power-law tail, exponent not one. -/
theorem tail_integral (b n x y : ℝ) (hn : n ≠ 1) (hx : 0 < b - x) (hy : 0 < b - y) :
    ∫ t in x..y, (b - t) ^ (-n) = 1 / (1 - n) * (1 / (b - x) ^ (n - 1) - 1 / (b - y) ^ (n - 1)) := by
  have hn' : (1 - n) ≠ 0 := fun h => hn (by linarith)
  rw [integral_comp_sub_left (fun u => u ^ (-n)) b]
  rw [integral_rpow (Or.inr ⟨fun h => hn (by linarith), Set.notMem_uIcc_of_lt hy hx⟩)]
  have e1 : -n + 1 = -(n - 1) := by ring
  rw [e1, Real.rpow_neg hx.le, Real.rpow_neg hy.le, one_div ((b - x) ^ (n - 1)), one_div ((b - y) ^ (n - 1))]
  rw [show -(n - 1) = 1 - n by ring]
  field_simp

/-- The power-law tail, exponent one. -/
theorem tail_integral_one (b x y : ℝ) (hx : 0 < b - x) (hy : 0 < b - y) :
    ∫ t in x..y, (b - t) ^ (-(1 : ℝ)) = Real.log (b - x) - Real.log (b - y) := by
  rw [integral_comp_sub_left (fun u => u ^ (-(1 : ℝ))) b]
  simp only [Real.rpow_neg_one]
  rw [integral_inv_of_pos hy hx, Real.log_div hx.ne' hy.ne']

/-- The exponential tail. -/
theorem exp_tail_integral (A x y : ℝ) (hA : A ≠ 0) :
    ∫ t in x..y, Real.exp (0.5 * A ^ 2 + A * t) = 1 / A * Real.exp (0.5 * A ^ 2) * (Real.exp (A * y) - Real.exp (A * x)) := by
  simp only [Real.exp_add]
  rw [integral_const_mul, integral_comp_mul_left (fun s => Real.exp s) hA, integral_exp, smul_eq_mul]
  field_simp

/-- A shape glued from two pieces at `-A`. -/
noncomputable def glue (A : ℝ) (f g : ℝ → ℝ) (t : ℝ) : ℝ := open Classical in if t < -A then f t else g t

theorem glue_left {A : ℝ} {f g : ℝ → ℝ} {t : ℝ} (h : t < -A) : glue A f g t = f t := if_pos h
theorem glue_right {A : ℝ} {f g : ℝ → ℝ} {t : ℝ} (h : -A ≤ t) : glue A f g t = g t := if_neg (not_lt.2 h)

theorem glue_integral_right (A : ℝ) (f g : ℝ → ℝ) (x y : ℝ) (hxy : x ≤ y) (hx : -A ≤ x) :
    ∫ t in x..y, glue A f g t = ∫ t in x..y, g t := by
  apply integral_congr
  intro t ht
  rw [Set.uIcc_of_le hxy] at ht
  exact glue_right (hx.trans ht.1)

theorem glue_integral_left (A : ℝ) (f g : ℝ → ℝ) (x y : ℝ) (hxy : x ≤ y) (hy : y ≤ -A) (hj : f (-A) = g (-A)) :
    ∫ t in x..y, glue A f g t = ∫ t in x..y, f t := by
  apply integral_congr
  intro t ht
  rw [Set.uIcc_of_le hxy] at ht
  rcases lt_or_eq_of_le (ht.2.trans hy) with h | h
  · exact glue_left h
  · rw [h, glue_right le_rfl, hj]

theorem glue_continuous (A : ℝ) (f g : ℝ → ℝ) (hf : ContinuousOn f (Set.Iic (-A))) (hg : Continuous g)
    (hj : f (-A) = g (-A)) : Continuous (glue A f g) := by
  have e : glue A f g = fun t => open Classical in if t ≤ -A then f t else g t := by
    funext t
    rcases lt_trichotomy t (-A) with h | h | h
    · rw [glue_left h, if_pos h.le]
    · rw [h, glue_right le_rfl, if_pos le_rfl, hj]
    · rw [glue_right h.le, if_neg (not_le.2 h)]
  rw [e]
  refine continuous_if_le continuous_id continuous_const hf hg.continuousOn ?_
  intro x hx
  rw [hx, hj]

theorem glue_integral_mid (A : ℝ) (f g : ℝ → ℝ) (x y : ℝ) (hx : x ≤ -A) (hy : -A ≤ y) (hj : f (-A) = g (-A))
    (hc : Continuous (glue A f g)) :
    ∫ t in x..y, glue A f g t = (∫ t in x..(-A), f t) + ∫ t in (-A)..y, g t := by
  rw [← integral_add_adjacent_intervals (hc.intervalIntegrable x (-A)) (hc.intervalIntegrable (-A) y)]
  rw [glue_integral_left A f g x (-A) hx le_rfl hj, glue_integral_right A f g (-A) y hy le_rfl]

end Zfit.Phys

namespace Zfit.Phys

open intervalIntegral

theorem sign_cases (alpha : ℝ) (h : alpha ≠ 0) : (0 < alpha ∧ Real.sign alpha = 1) ∨ (alpha < 0 ∧ Real.sign alpha = -1) := by
  rcases lt_or_gt_of_ne h with h | h
  · exact Or.inr ⟨h, Real.sign_of_neg h⟩
  · exact Or.inl ⟨h, Real.sign_of_pos h⟩

/-- Substituting the reduced variable. -/
theorem reduced_integral (F : ℝ → ℝ) (mu sigma alpha lower upper : ℝ) (hs : 0 < sigma) (ha : alpha ≠ 0) :
    ∫ x in lower..upper, F ((x - mu) / sigma * Real.sign alpha) =
      sigma * ∫ t in (open Classical in if alpha < 0 then -((upper - mu) / |sigma|) else (lower - mu) / |sigma|)..(open Classical in if alpha < 0 then -((lower - mu) / |sigma|) else (upper - mu) / |sigma|), F t := by
  rw [abs_of_pos hs]
  rcases sign_cases alpha ha with ⟨h, e⟩ | ⟨h, e⟩
  · rw [e, if_neg (not_lt.2 h.le), if_neg (not_lt.2 h.le)]
    have : (fun x => F ((x - mu) / sigma * 1)) = fun x => F (x / sigma - mu / sigma) := by
      funext x; rw [mul_one, sub_div]
    rw [this, integral_comp_div_sub F hs.ne', smul_eq_mul, ← sub_div, ← sub_div]
  · rw [e, if_pos h, if_pos h]
    have : (fun x => F ((x - mu) / sigma * (-1))) = fun x => F (mu / sigma - x / sigma) := by
      funext x; congr 1; ring
    rw [this, integral_comp_sub_div F hs.ne', smul_eq_mul]
    congr 2 <;> ring

theorem reduced_le (mu sigma alpha lower upper : ℝ) (hs : 0 < sigma) (hl : lower ≤ upper) :
    (open Classical in if alpha < 0 then -((upper - mu) / |sigma|) else (lower - mu) / |sigma|) ≤
      (open Classical in if alpha < 0 then -((lower - mu) / |sigma|) else (upper - mu) / |sigma|) := by
  have h1 : (lower - mu) / |sigma| ≤ (upper - mu) / |sigma| :=
    div_le_div_of_nonneg_right (by linarith) (abs_nonneg _)
  split <;> linarith

/-- The Crystal Ball shape in the reduced variable. -/
noncomputable def cbTail (A n t : ℝ) : ℝ := (n / A) ^ n * Real.exp (-0.5 * A ^ 2) * (n / A - A - t) ^ (-n)

noncomputable def core (t : ℝ) : ℝ := Real.exp (-0.5 * t ^ 2)

theorem core_continuous : Continuous core := by unfold core; fun_prop

theorem cbTail_join (A n : ℝ) (hA : 0 < A) (hn : 0 < n) : cbTail A n (-A) = core (-A) := by
  unfold cbTail core
  have h : n / A - A - -A = n / A := by ring
  have hp : 0 < n / A := div_pos hn hA
  rw [h, Real.rpow_neg hp.le, neg_sq]
  have : (n / A) ^ n ≠ 0 := (Real.rpow_pos_of_pos hp n).ne'
  field_simp

theorem cbTail_arg_pos {A n t : ℝ} (hA : 0 < A) (hn : 0 < n) (ht : t ≤ -A) : 0 < n / A - A - t := by
  have hp : 0 < n / A := div_pos hn hA
  linarith

theorem cbTail_pos {A n t : ℝ} (hA : 0 < A) (hn : 0 < n) (ht : t ≤ -A) : 0 < cbTail A n t := by
  unfold cbTail
  have hp : 0 < n / A := div_pos hn hA
  exact mul_pos (mul_pos (Real.rpow_pos_of_pos hp n) (Real.exp_pos _)) (Real.rpow_pos_of_pos (cbTail_arg_pos hA hn ht) _)

theorem cbTail_continuousOn (A n : ℝ) (hA : 0 < A) (hn : 0 < n) : ContinuousOn (cbTail A n) (Set.Iic (-A)) := by
  unfold cbTail
  apply ContinuousOn.mul continuousOn_const
  apply ContinuousOn.rpow_const (continuousOn_const.sub continuousOn_id)
  intro t ht
  exact Or.inl (cbTail_arg_pos hA hn ht).ne'

theorem cb_glue_continuous (A n : ℝ) (hA : 0 < A) (hn : 0 < n) : Continuous (glue A (cbTail A n) core) :=
  glue_continuous A _ _ (cbTail_continuousOn A n hA hn) core_continuous (cbTail_join A n hA hn)

theorem crystalball_eq (x mu sigma alpha n : ℝ) (ha : alpha ≠ 0) (hn : 0 < n) :
    crystalball x mu sigma alpha n = glue |alpha| (cbTail |alpha| n) core ((x - mu) / sigma * Real.sign alpha) := by
  have hA : 0 < |alpha| := abs_pos.2 ha
  simp only [crystalball, safeWhere, powerlaw]
  by_cases h : (x - mu) / sigma * Real.sign alpha < -|alpha|
  · rw [if_pos h, if_pos h, glue_left h]
    have e : -0.5 * alpha ^ 2 = -0.5 * |alpha| ^ 2 := by rw [sq_abs]
    rw [e]
    exact max_eq_left (cbTail_pos hA hn h.le).le
  · rw [if_neg h, glue_right (not_lt.1 h)]
    exact max_eq_left (Real.exp_pos _).le

/-- The exponential tail in the reduced variable. -/
noncomputable def expTail (A t : ℝ) : ℝ := Real.exp (0.5 * A ^ 2 + A * t)

theorem expTail_join (A : ℝ) : expTail A (-A) = core (-A) := by
  unfold expTail core
  congr 1
  ring

theorem expTail_continuous (A : ℝ) : Continuous (expTail A) := by unfold expTail; fun_prop

theorem exp_glue_continuous (A : ℝ) : Continuous (glue A (expTail A) core) :=
  glue_continuous A _ _ (expTail_continuous A).continuousOn core_continuous (expTail_join A)

theorem gaussexptail_eq (x mu sigma alpha : ℝ) :
    gaussexptail x mu sigma alpha = glue |alpha| (expTail |alpha|) core ((x - mu) / sigma * Real.sign alpha) := by
  simp only [gaussexptail, safeWhere]
  by_cases h : (x - mu) / sigma * Real.sign alpha < -|alpha|
  · rw [if_pos h, if_pos h, glue_left h, expTail]
  · rw [if_neg h, glue_right (not_lt.1 h), core]

theorem cb_mid_value {A n x : ℝ} (hA : 0 < A) (hn : 0 < n) (hx : x ≤ -A) (hn1 : n ≠ 1) :
    ∫ t in x..(-A), cbTail A n t = (n / A) ^ n * Real.exp (-0.5 * A ^ 2) *
      (1 / (1 - n) * (1 / (n / A - A - x) ^ (n - 1) - 1 / (n / A) ^ (n - 1))) := by
  unfold cbTail
  rw [integral_const_mul, tail_integral _ _ _ _ hn1 (cbTail_arg_pos hA hn hx) (cbTail_arg_pos hA hn le_rfl)]
  rw [show n / A - A - -A = n / A by ring]

end Zfit.Phys

namespace Zfit.Phys

open intervalIntegral

theorem glue_of_le {A : ℝ} {f g : ℝ → ℝ} {t : ℝ} (hj : f (-A) = g (-A)) (h : t ≤ -A) : glue A f g t = f t := by
  rcases lt_or_eq_of_le h with h | h
  · exact glue_left h
  · rw [h, glue_right le_rfl, hj]

theorem glue_hasDerivAt (A : ℝ) (f g : ℝ → ℝ) (d : ℝ) (hf : HasDerivAt f d (-A)) (hg : HasDerivAt g d (-A))
    (hj : f (-A) = g (-A)) : HasDerivAt (glue A f g) d (-A) := by
  rw [← hasDerivWithinAt_univ, ← Set.Iic_union_Ici (a := -A)]
  apply HasDerivWithinAt.union
  · exact hf.hasDerivWithinAt.congr (fun x hx => glue_of_le hj hx) (glue_of_le hj le_rfl)
  · exact hg.hasDerivWithinAt.congr (fun x hx => glue_right hx) (glue_right le_rfl)

theorem glue_differentiable (A : ℝ) (f g : ℝ → ℝ) (d : ℝ) (hf : ∀ t, t ≤ -A → DifferentiableAt ℝ f t)
    (hg : ∀ t, -A ≤ t → DifferentiableAt ℝ g t) (hfd : HasDerivAt f d (-A)) (hgd : HasDerivAt g d (-A))
    (hj : f (-A) = g (-A)) : Differentiable ℝ (glue A f g) := by
  intro t
  rcases lt_trichotomy t (-A) with h | h | h
  · apply (hf t h.le).congr_of_eventuallyEq
    filter_upwards [Iio_mem_nhds h] with s hs
    exact glue_left hs
  · rw [h]
    exact (glue_hasDerivAt A f g d hfd hgd hj).differentiableAt
  · apply (hg t h.le).congr_of_eventuallyEq
    filter_upwards [Ioi_mem_nhds h] with s hs
    exact glue_right (le_of_lt hs)

theorem glue_mono (A : ℝ) (f g : ℝ → ℝ) (c : ℝ) (hf : ∀ s t, s ≤ t → t ≤ -A → f s ≤ f t)
    (hg : ∀ s t, -A ≤ s → s ≤ t → t ≤ c → g s ≤ g t) (hj : f (-A) = g (-A)) (s t : ℝ) (hst : s ≤ t) (ht : t ≤ c) :
    glue A f g s ≤ glue A f g t := by
  rcases le_total t (-A) with h | h
  · rw [glue_of_le hj h, glue_of_le hj (hst.trans h)]
    exact hf s t hst h
  · rcases le_total s (-A) with h' | h'
    · rw [glue_of_le hj h', glue_right h]
      exact (hf s (-A) h' le_rfl).trans (hj ▸ hg (-A) t le_rfl h ht)
    · rw [glue_right h', glue_right h]
      exact hg s t h' hst ht

theorem core_mono (s t : ℝ) (hst : s ≤ t) (ht : t ≤ 0) : core s ≤ core t := by
  unfold core
  apply Real.exp_le_exp.2
  nlinarith

theorem core_anti (s t : ℝ) (hs : 0 ≤ s) (hst : s ≤ t) : core t ≤ core s := by
  unfold core
  apply Real.exp_le_exp.2
  nlinarith

theorem core_hasDerivAt (t : ℝ) : HasDerivAt core (-t * core t) t := by
  unfold core
  have h1 : HasDerivAt (fun t : ℝ => -0.5 * t ^ 2) (-0.5 * (2 * t)) t := by
    have := ((hasDerivAt_id t).pow 2).const_mul (-0.5 : ℝ)
    refine this.congr_deriv ?_
    simp
  refine h1.exp.congr_deriv ?_
  ring

theorem cbTail_mono (A n : ℝ) (hA : 0 < A) (hn : 0 < n) (s t : ℝ) (hst : s ≤ t) (ht : t ≤ -A) :
    cbTail A n s ≤ cbTail A n t := by
  unfold cbTail
  apply mul_le_mul_of_nonneg_left
  · exact Real.rpow_le_rpow_of_nonpos (cbTail_arg_pos hA hn ht) (by linarith) (by linarith)
  · exact mul_nonneg (Real.rpow_nonneg (div_pos hn hA).le _) (Real.exp_pos _).le

theorem cbTail_hasDerivAt (A n t : ℝ) (hA : 0 < A) (hn : 0 < n) (ht : t ≤ -A) :
    HasDerivAt (cbTail A n) ((n / A) ^ n * Real.exp (-0.5 * A ^ 2) * (n * (n / A - A - t) ^ (-n - 1))) t := by
  unfold cbTail
  apply HasDerivAt.const_mul
  have h1 : HasDerivAt (fun t => n / A - A - t) (-1) t := by
    simpa using (hasDerivAt_id t).const_sub (n / A - A)
  have h2 := h1.rpow_const (p := -n) (Or.inl (cbTail_arg_pos hA hn ht).ne')
  refine h2.congr_deriv ?_
  ring

theorem cbTail_deriv_join (A n : ℝ) (hA : 0 < A) (hn : 0 < n) : HasDerivAt (cbTail A n) (-(-A) * core (-A)) (-A) := by
  refine (cbTail_hasDerivAt A n (-A) hA hn le_rfl).congr_deriv ?_
  have hp : 0 < n / A := div_pos hn hA
  have h : n / A - A - -A = n / A := by ring
  have hne : (n / A) ^ n ≠ 0 := (Real.rpow_pos_of_pos hp n).ne'
  rw [h, Real.rpow_sub hp, Real.rpow_neg hp.le, Real.rpow_one]
  unfold core
  rw [neg_neg, neg_sq]
  field_simp

theorem expTail_hasDerivAt (A t : ℝ) : HasDerivAt (expTail A) (A * expTail A t) t := by
  unfold expTail
  have h1 : HasDerivAt (fun t => 0.5 * A ^ 2 + A * t) A t := by
    simpa using ((hasDerivAt_id t).const_mul A).const_add (0.5 * A ^ 2)
  refine h1.exp.congr_deriv ?_
  ring

/-- Unimodality in the reduced variable carries over to `x`. -/
theorem unimodal_reduced (F : ℝ → ℝ) (mu sigma alpha : ℝ) (hs : 0 < sigma) (ha : alpha ≠ 0)
    (hup : ∀ s t, s ≤ t → t ≤ 0 → F s ≤ F t) (hdown : ∀ s t, 0 ≤ s → s ≤ t → F t ≤ F s) (x y : ℝ) (hxy : x ≤ y) :
    (y ≤ mu → F ((x - mu) / sigma * Real.sign alpha) ≤ F ((y - mu) / sigma * Real.sign alpha)) ∧
    (mu ≤ x → F ((y - mu) / sigma * Real.sign alpha) ≤ F ((x - mu) / sigma * Real.sign alpha)) := by
  have h1 : (x - mu) / sigma ≤ (y - mu) / sigma := div_le_div_of_nonneg_right (by linarith) hs.le
  have hneg : ∀ z, z ≤ mu → (z - mu) / sigma ≤ 0 := fun z hz => div_nonpos_of_nonpos_of_nonneg (by linarith) hs.le
  have hpos : ∀ z, mu ≤ z → 0 ≤ (z - mu) / sigma := fun z hz => div_nonneg (by linarith) hs.le
  rcases sign_cases alpha ha with ⟨_, e⟩ | ⟨_, e⟩
  · rw [e, mul_one, mul_one]
    exact ⟨fun h => hup _ _ h1 (hneg y h), fun h => hdown _ _ (hpos x h) h1⟩
  · rw [e, mul_neg_one, mul_neg_one]
    exact ⟨fun h => hdown _ _ (by linarith [hneg y h]) (by linarith), fun h => hup _ _ (by linarith) (by linarith [hpos x h])⟩

end Zfit.Phys
