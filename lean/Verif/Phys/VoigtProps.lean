import Verif.Phys.Voigt
import Mathlib.Tactic.Linarith
import Mathlib.Tactic.FieldSimp
import Mathlib.Tactic.Positivity
import Mathlib.Tactic.NormNum
import Mathlib.Algebra.Polynomial.Roots

/-! Properties of the Voigt profile (C220-C222). -/

namespace Zfit.Phys

open Complex Polynomial

/-! ## Reflection -/

theorem hornerAlt_conj (l : List (ℚ × ℚ)) (Z : ℂ) : hornerAlt l (-(starRingEnd ℂ) Z) = (starRingEnd ℂ) (hornerAlt l Z) := by
  induction l with
  | nil => simp [hornerAlt]
  | cons p l ih =>
    obtain ⟨a, b⟩ := p
    simp only [hornerAlt, ih, map_add, map_mul, conj_I, map_ratCast]
    ring

theorem horner_conj (l : List ℚ) (t : ℂ) : horner l ((starRingEnd ℂ) t) = (starRingEnd ℂ) (horner l t) := by
  induction l with
  | nil => simp [horner]
  | cons b l ih => simp only [horner, ih, map_add, map_mul, map_ratCast]

/-- Reflection at the imaginary axis: `w(-z*) = w(z)*`, as for the function that is approximated. -/
theorem faddeeva_reflect (z : ℂ) (s : ℝ) : faddeeva (-(starRingEnd ℂ) z) s = (starRingEnd ℂ) (faddeeva z s) := by
  have hre : (-(starRingEnd ℂ) z).re = -z.re := by simp
  have him : (-(starRingEnd ℂ) z).im = z.im := by simp
  unfold faddeeva
  rw [hre, him, abs_neg]
  split
  · unfold faddeevaNear
    dsimp only
    have hZ : -(starRingEnd ℂ) z + (1.35 : ℚ) * I = -(starRingEnd ℂ) (z + (1.35 : ℚ) * I) := by
      simp only [map_add, map_mul, conj_I, map_ratCast]; ring
    rw [hZ, hornerAlt_conj, neg_mul_neg, ← map_mul, horner_conj, map_div₀]
  · unfold faddeevaFar
    simp only [map_div₀, map_mul, map_add, map_sub, conj_I, map_ratCast, Complex.conj_ofReal]
    ring

/-! ## C220: shape -/

/-- **C220, symmetry.**  The Voigt profile has the same value on both sides of `m`, for all parameters. -/
theorem voigt_symmetric (d m sigma gamma : ℝ) : voigt (m + d) m sigma gamma = voigt (m - d) m sigma gamma := by
  have h : ∀ d : ℝ, (((m + d - m : ℝ) : ℂ) + I * (gamma : ℂ)) / (((Real.sqrt 2 : ℝ) : ℂ) * (sigma : ℂ)) =
      ((d : ℂ) + I * (gamma : ℂ)) / (((Real.sqrt 2 : ℝ) : ℂ) * (sigma : ℂ)) := fun d => by
    rw [show m + d - m = d by ring]
  have h' : (((m - d - m : ℝ) : ℂ) + I * (gamma : ℂ)) / (((Real.sqrt 2 : ℝ) : ℂ) * (sigma : ℂ)) =
      -(starRingEnd ℂ) (((d : ℂ) + I * (gamma : ℂ)) / (((Real.sqrt 2 : ℝ) : ℂ) * (sigma : ℂ))) := by
    rw [show m - d - m = -d by ring]
    simp only [map_div₀, map_mul, map_add, conj_I, Complex.conj_ofReal]
    push_cast
    ring
  unfold voigt
  dsimp only
  rw [h, h', faddeeva_reflect, Complex.conj_re]

/-- **C220, shift.**  Only the distance to `m` matters. -/
theorem voigt_shift (x m c sigma gamma : ℝ) : voigt (x + c) (m + c) sigma gamma = voigt x m sigma gamma := by
  unfold voigt
  rw [show x + c - (m + c) = x - m by ring]

/-- **C220, scale.**  Stretching the distance to `m` and both widths by the same factor divides the value by it. -/
theorem voigt_scale (d m sigma gamma k : ℝ) (hk : k ≠ 0) :
    voigt (m + k * d) m (k * sigma) (k * gamma) = voigt (m + d) m sigma gamma / k := by
  have h : (((m + k * d - m : ℝ) : ℂ) + I * ((k * gamma : ℝ) : ℂ)) / (((Real.sqrt 2 : ℝ) : ℂ) * ((k * sigma : ℝ) : ℂ)) =
      (((m + d - m : ℝ) : ℂ) + I * (gamma : ℂ)) / (((Real.sqrt 2 : ℝ) : ℂ) * (sigma : ℂ)) := by
    have hk' : (k : ℂ) ≠ 0 := by exact_mod_cast hk
    rw [show m + k * d - m = k * d by ring, show m + d - m = d by ring]
    push_cast
    rw [show (k : ℂ) * d + I * (k * gamma) = k * (d + I * gamma) by ring,
      show ((Real.sqrt 2 : ℝ) : ℂ) * (k * sigma) = k * (((Real.sqrt 2 : ℝ) : ℂ) * sigma) by ring]
    exact mul_div_mul_left _ _ hk'
  unfold voigt
  dsimp only
  rw [h, mul_assoc, mul_comm k, div_mul_eq_div_div]

/-! ## The denominators -/

/-- The same polynomial with real argument. -/
noncomputable def hornerR : List ℚ → ℝ → ℝ
  | [], _ => 0
  | b :: l, t => hornerR l t * t + (b : ℝ)

def hornerQ : List ℚ → ℚ → ℚ
  | [], _ => 0
  | b :: l, t => hornerQ l t * t + b

theorem hornerR_ratCast (l : List ℚ) (q : ℚ) : hornerR l q = (hornerQ l q : ℚ) := by
  induction l with
  | nil => simp [hornerR, hornerQ]
  | cons b l ih => simp [hornerR, hornerQ, ih]

theorem horner_ofReal (l : List ℚ) (t : ℝ) : horner l t = (hornerR l t : ℝ) := by
  induction l with
  | nil => simp [hornerR, horner]
  | cons b l ih => simp [hornerR, horner, ih]

theorem hornerR_continuous (l : List ℚ) : Continuous (hornerR l) := by
  induction l with
  | nil => exact continuous_const
  | cons b l ih => exact (ih.mul continuous_id).add continuous_const

/-- The polynomial as a polynomial. -/
noncomputable def polyOf : List ℚ → ℂ[X]
  | [] => 0
  | b :: l => polyOf l * X + C (b : ℂ)

theorem polyOf_eval (l : List ℚ) (t : ℂ) : (polyOf l).eval t = horner l t := by
  induction l with
  | nil => simp [polyOf, horner]
  | cons b l ih => simp [polyOf, horner, ih]

theorem polyOf_degree (b : ℚ) (l : List ℚ) : (polyOf (b :: l)).natDegree ≤ l.length := by
  induction l generalizing b with
  | nil => simp [polyOf]
  | cons c l ih =>
    have h := ih c
    have : polyOf (b :: c :: l) = polyOf (c :: l) * X + C (b : ℂ) := rfl
    rw [this]
    refine (natDegree_add_le _ _).trans (max_le ?_ (by simp))
    refine natDegree_mul_le.trans ?_
    simp only [natDegree_X, List.length_cons]
    omega

/-- A zero between two rational points with values of different signs. -/
theorem zero_between (l : List ℚ) (a b : ℚ) (hab : a ≤ b) (h : hornerQ l a < 0 ∧ 0 < hornerQ l b ∨ 0 < hornerQ l a ∧ hornerQ l b < 0) :
    ∃ t : ℝ, (a : ℝ) < t ∧ t < b ∧ hornerR l t = 0 := by
  have hab' : (a : ℝ) ≤ b := by exact_mod_cast hab
  have hc : ContinuousOn (hornerR l) (Set.Icc (a : ℝ) b) := (hornerR_continuous l).continuousOn
  have hne : ∀ q : ℚ, hornerQ l q ≠ 0 → ∀ t : ℝ, hornerR l t = 0 → t ≠ q := by
    intro q hq t ht he
    subst he
    rw [hornerR_ratCast] at ht
    exact hq (by exact_mod_cast ht)
  rcases h with ⟨h1, h2⟩ | ⟨h1, h2⟩
  · obtain ⟨t, ht, h0⟩ := intermediate_value_Icc hab' hc (show (0 : ℝ) ∈ Set.Icc _ _ by
      rw [hornerR_ratCast, hornerR_ratCast]; exact ⟨by exact_mod_cast h1.le, by exact_mod_cast h2.le⟩)
    exact ⟨t, lt_of_le_of_ne ht.1 (hne a h1.ne t h0).symm, lt_of_le_of_ne ht.2 (hne b h2.ne' t h0), h0⟩
  · obtain ⟨t, ht, h0⟩ := intermediate_value_Icc' hab' hc (show (0 : ℝ) ∈ Set.Icc _ _ by
      rw [hornerR_ratCast, hornerR_ratCast]; exact ⟨by exact_mod_cast h2.le, by exact_mod_cast h1.le⟩)
    exact ⟨t, lt_of_le_of_ne ht.1 (hne a h1.ne' t h0).symm, lt_of_le_of_ne ht.2 (hne b h2.ne t h0), h0⟩

/-- All zeros of the denominator of the approximation near the origin are positive real numbers. -/
theorem denominator_zero (t : ℂ) (h : horner coeffBB t = 0) : ∃ r : ℝ, 0 < r ∧ t = r := by
  by_contra hno
  push Not at hno
  obtain ⟨t1, a1, b1, z1⟩ := zero_between coeffBB 0 (3 / 10) (by norm_num) (by right; constructor <;> decide +kernel)
  obtain ⟨t2, a2, b2, z2⟩ := zero_between coeffBB (3 / 10) (12 / 10) (by norm_num) (by left; constructor <;> decide +kernel)
  obtain ⟨t3, a3, b3, z3⟩ := zero_between coeffBB (12 / 10) (28 / 10) (by norm_num) (by right; constructor <;> decide +kernel)
  obtain ⟨t4, a4, b4, z4⟩ := zero_between coeffBB (28 / 10) 5 (by norm_num) (by left; constructor <;> decide +kernel)
  obtain ⟨t5, a5, b5, z5⟩ := zero_between coeffBB 5 8 (by norm_num) (by right; constructor <;> decide +kernel)
  obtain ⟨t6, a6, b6, z6⟩ := zero_between coeffBB 8 (125 / 10) (by norm_num) (by left; constructor <;> decide +kernel)
  obtain ⟨t7, a7, b7, z7⟩ := zero_between coeffBB (125 / 10) (185 / 10) (by norm_num) (by right; constructor <;> decide +kernel)
  obtain ⟨t8, a8, b8, z8⟩ := zero_between coeffBB (185 / 10) 25 (by norm_num) (by left; constructor <;> decide +kernel)
  push_cast at a1 a2 a3 a4 a5 a6 a7 a8 b1 b2 b3 b4 b5 b6 b7 b8
  have hl : [t1, t2, t3, t4, t5, t6, t7, t8].Nodup := by
    simp only [List.nodup_cons, List.mem_cons, List.not_mem_nil, or_false, not_or, List.nodup_nil, not_false_eq_true,
      and_true]
    refine ⟨⟨?_, ?_, ?_, ?_, ?_, ?_, ?_⟩, ⟨?_, ?_, ?_, ?_, ?_, ?_⟩, ⟨?_, ?_, ?_, ?_, ?_⟩, ⟨?_, ?_, ?_, ?_⟩, ⟨?_, ?_, ?_⟩,
      ⟨?_, ?_⟩, ?_⟩ <;> (apply ne_of_lt; linarith)
  have hpos : ∀ r ∈ [t1, t2, t3, t4, t5, t6, t7, t8], 0 < r ∧ hornerR coeffBB r = 0 := by
    intro r hr
    simp only [List.mem_cons, List.not_mem_nil, or_false] at hr
    rcases hr with rfl | rfl | rfl | rfl | rfl | rfl | rfl | rfl
    · exact ⟨a1, z1⟩
    · exact ⟨by linarith, z2⟩
    · exact ⟨by linarith, z3⟩
    · exact ⟨by linarith, z4⟩
    · exact ⟨by linarith, z5⟩
    · exact ⟨by linarith, z6⟩
    · exact ⟨by linarith, z7⟩
    · exact ⟨by linarith, z8⟩
  set L : List ℂ := t :: [t1, t2, t3, t4, t5, t6, t7, t8].map (fun r : ℝ => (r : ℂ)) with hL
  have hnd : L.Nodup := by
    rw [hL, List.nodup_cons]
    refine ⟨?_, hl.map Complex.ofReal_injective⟩
    intro hm
    obtain ⟨r, hr, he⟩ := List.mem_map.1 hm
    exact hno r (hpos r hr).1 he.symm
  have hzero : polyOf coeffBB = 0 := by
    refine eq_zero_of_natDegree_lt_card_of_eval_eq_zero' _ L.toFinset ?_ ?_
    · intro x hx
      rw [List.mem_toFinset, hL, List.mem_cons] at hx
      rw [polyOf_eval]
      rcases hx with rfl | hx
      · exact h
      · obtain ⟨r, hr, rfl⟩ := List.mem_map.1 hx
        rw [horner_ofReal, (hpos r hr).2]; rfl
    · rw [List.toFinset_card_of_nodup hnd]
      have := polyOf_degree 7918.06640624997 [-126689.0625, 295607.8125, -236486.25, 84459.375, -15015, 1365, -60, 1]
      have hlen : L.length = 9 := by simp [hL]
      rw [hlen]
      exact lt_of_le_of_lt this (by simp)
  have h0 : (polyOf coeffBB).eval 0 = 0 := by rw [hzero]; simp
  rw [polyOf_eval] at h0
  simp [horner, coeffBB] at h0
  norm_num at h0

/-- The approximation near the origin divides by a number other than zero in the upper half plane and on its border. -/
theorem near_denominator_ne (z : ℂ) (hz : 0 ≤ z.im) :
    horner coeffBB ((z + (1.35 : ℚ) * I) * (z + (1.35 : ℚ) * I)) ≠ 0 := by
  intro h
  obtain ⟨r, hr, he⟩ := denominator_zero _ h
  have him := congrArg Complex.im he
  have hre := congrArg Complex.re he
  set Z := z + (1.35 : ℚ) * I with hZ
  have hZi : 0 < Z.im := by
    have : Z.im = z.im + 1.35 := by
      rw [hZ]
      simp [Complex.add_im, Complex.mul_im]
    rw [this]; linarith
  simp only [Complex.mul_im, Complex.mul_re, Complex.ofReal_im, Complex.ofReal_re] at him hre
  have h0 : Z.re = 0 := by
    have : Z.re * Z.im = 0 := by linarith
    rcases mul_eq_zero.1 this with h | h
    · exact h
    · linarith
  rw [h0] at hre
  nlinarith

/-- The approximation far from the origin divides by a number other than zero, ten or more away from the origin in the
upper half plane and on its border. -/
theorem far_denominator_ne (z : ℂ) (hz : 0 ≤ z.im) (hfar : 10 ≤ |z.re| + z.im) :
    ((0.75 : ℚ) : ℂ) + z * z * (z * z - (3 : ℚ)) ≠ 0 := by
  intro h
  have h1 : (z * z - 3 / 2) ^ 2 = ((3 / 2 : ℝ) : ℂ) := by
    push_cast at h ⊢
    linear_combination h
  have h2 : ∃ r : ℝ, z * z = r ∧ (r - 3 / 2) ^ 2 = 3 / 2 := by
    have h3 : (z * z - 3 / 2 - (Real.sqrt (3 / 2) : ℝ)) * (z * z - 3 / 2 + (Real.sqrt (3 / 2) : ℝ)) = 0 := by
      have hs : ((Real.sqrt (3 / 2) : ℝ) : ℂ) ^ 2 = ((3 / 2 : ℝ) : ℂ) := by
        rw [← Complex.ofReal_pow, Real.sq_sqrt (by norm_num)]
      linear_combination h1 - hs
    have hs : Real.sqrt (3 / 2) ^ 2 = 3 / 2 := Real.sq_sqrt (by norm_num)
    rcases mul_eq_zero.1 h3 with h | h
    · refine ⟨3 / 2 + Real.sqrt (3 / 2), ?_, by linear_combination hs⟩
      push_cast
      linear_combination h
    · refine ⟨3 / 2 - Real.sqrt (3 / 2), ?_, by linear_combination hs⟩
      push_cast
      linear_combination h
  obtain ⟨r, hr, hq⟩ := h2
  have him := congrArg Complex.im hr
  have hre := congrArg Complex.re hr
  simp only [Complex.mul_im, Complex.mul_re, Complex.ofReal_im, Complex.ofReal_re] at him hre
  have hxy : z.re * z.im = 0 := by linarith
  have hr0 : 0 < r ∧ r < 3 := by constructor <;> nlinarith
  rcases mul_eq_zero.1 hxy with hx | hy
  · rw [hx] at hre; nlinarith
  · rw [hy] at hre hfar
    have : 10 ≤ |z.re| := by linarith
    have h100 : (100 : ℝ) ≤ z.re * z.re := by
      rw [← abs_mul_abs_self z.re]; nlinarith
    linarith

/-! ## C221: no division by zero; C222: positive -/

/-- **C221, no division by zero.**  For a width `sigma > 0` and `gamma ≥ 0` the Voigt profile never divides by zero: not
by the denominator of the approximation that is used at this place, not by the prefactor. -/
theorem voigt_defined (x m sigma gamma : ℝ) (hs : 0 < sigma) (hg : 0 ≤ gamma) :
    sigma * Real.sqrt (2 * Real.pi) ≠ 0 ∧
    ∃ z : ℂ, z.re * (Real.sqrt 2 * sigma) = x - m ∧ z.im * (Real.sqrt 2 * sigma) = gamma ∧
      voigt x m sigma gamma * (sigma * Real.sqrt (2 * Real.pi)) = (faddeeva z).re ∧
      ((|z.re| + z.im < 10 → horner coeffBB ((z + (1.35 : ℚ) * I) * (z + (1.35 : ℚ) * I)) ≠ 0 ∧
          faddeeva z * horner coeffBB ((z + (1.35 : ℚ) * I) * (z + (1.35 : ℚ) * I)) = hornerAlt coeffAA (z + (1.35 : ℚ) * I)) ∧
        (10 ≤ |z.re| + z.im → ((0.75 : ℚ) : ℂ) + z * z * (z * z - (3 : ℚ)) ≠ 0 ∧
          faddeeva z * (((0.75 : ℚ) : ℂ) + z * z * (z * z - (3 : ℚ))) =
            I * z * (z * z * ((1 / Real.sqrt Real.pi : ℝ) : ℂ) - (1.410474 : ℚ)))) := by
  have hpre : sigma * Real.sqrt (2 * Real.pi) ≠ 0 := by have := Real.pi_pos; positivity
  have h2 : Real.sqrt 2 * sigma ≠ 0 := by positivity
  set z : ℂ := (((x - m : ℝ) : ℂ) + I * (gamma : ℂ)) / (((Real.sqrt 2 : ℝ) : ℂ) * (sigma : ℂ)) with hz
  have hz' : z * ((Real.sqrt 2 * sigma : ℝ) : ℂ) = ((x - m : ℝ) : ℂ) + I * (gamma : ℂ) := by
    rw [hz]
    push_cast
    have : (((Real.sqrt 2 : ℝ) : ℂ) * (sigma : ℂ)) ≠ 0 := by exact_mod_cast h2
    exact div_mul_cancel₀ _ this
  have hre : z.re * (Real.sqrt 2 * sigma) = x - m := by
    have := congrArg Complex.re hz'
    simpa only [Complex.mul_re, Complex.add_re, Complex.ofReal_re, Complex.ofReal_im, Complex.I_re, Complex.I_im, zero_mul,
      mul_zero, sub_zero, add_zero, one_mul, zero_sub, neg_zero] using this
  have him : z.im * (Real.sqrt 2 * sigma) = gamma := by
    have := congrArg Complex.im hz'
    simpa only [Complex.mul_im, Complex.add_im, Complex.ofReal_re, Complex.ofReal_im, Complex.I_re, Complex.I_im, zero_mul,
      mul_zero, sub_zero, add_zero, one_mul, zero_add] using this
  have hzi : 0 ≤ z.im := by
    have hp : 0 < Real.sqrt 2 * sigma := by positivity
    by_contra hn
    push Not at hn
    nlinarith
  refine ⟨hpre, z, hre, him, ?_, ?_, ?_⟩
  · unfold voigt
    dsimp only
    rw [← hz]
    field_simp
  · intro hnear
    have hne := near_denominator_ne z hzi
    refine ⟨hne, ?_⟩
    have hc : |z.re| + z.im < 10 ∧ z.im < 10 := ⟨hnear, by linarith [abs_nonneg z.re]⟩
    unfold faddeeva
    rw [if_pos hc]
    unfold faddeevaNear
    dsimp only
    rw [div_mul_cancel₀ _ hne]
  · intro hfar
    have hne := far_denominator_ne z hzi hfar
    refine ⟨hne, ?_⟩
    have hc : ¬(|z.re| + z.im < 10 ∧ z.im < 10) := fun h => absurd h.1 (not_lt.2 hfar)
    unfold faddeeva
    rw [if_neg hc]
    unfold faddeevaFar
    rw [div_mul_cancel₀ _ hne]

theorem inv_re_pos (a : ℂ) (h : 0 < a.re) : 0 < (a⁻¹).re := by
  rw [Complex.inv_re]
  have : a ≠ 0 := by rintro rfl; simp at h
  exact div_pos h (Complex.normSq_pos.2 this)

theorem ne_zero_of_re (a : ℂ) (h : 0 < a.re) : a ≠ 0 := by rintro rfl; simp at h

/-- A continued fraction with positive coefficients maps the right half plane into itself. -/
theorem ladder_pos (k : ℝ) (hk : k < 3) (hk' : 0.75 < k * (3 - k)) (p : ℂ) (hp : 0 < p.re) :
    0 < (p * (p * p + k) / (p * p * (p * p) + 3 * (p * p) + 0.75)).re := by
  have h3 : (0 : ℝ) < 3 - k := by linarith
  set κ : ℝ := k - 0.75 / (3 - k) with hκ
  have hκ0 : 0 < κ := by
    rw [hκ, sub_pos, div_lt_iff₀ h3]; exact hk'
  have hp0 : p ≠ 0 := ne_zero_of_re p hp
  set u : ℂ := (((3 - k) / κ : ℝ) : ℂ) * p + ((0.75 / κ : ℝ) : ℂ) * p⁻¹ with hu
  have hu0 : 0 < u.re := by
    rw [hu, Complex.add_re, Complex.re_ofReal_mul, Complex.re_ofReal_mul]
    have := inv_re_pos p hp
    have h1 : (0 : ℝ) < (3 - k) / κ := by positivity
    have h2 : (0 : ℝ) < 0.75 / κ := by positivity
    nlinarith [mul_pos h1 hp, mul_pos h2 this]
  set v : ℂ := ((1 / (3 - k) : ℝ) : ℂ) * p + u⁻¹ with hv
  have hv0 : 0 < v.re := by
    rw [hv, Complex.add_re, Complex.re_ofReal_mul]
    have := inv_re_pos u hu0
    have h1 : (0 : ℝ) < 1 / (3 - k) := by positivity
    nlinarith [mul_pos h1 hp]
  have hw0 : 0 < (p + v⁻¹).re := by
    rw [Complex.add_re]; linarith [inv_re_pos v hv0]
  have key : p * (p * p + k) / (p * p * (p * p) + 3 * (p * p) + 0.75) = (p + v⁻¹)⁻¹ := by
    have h3c : ((3 : ℂ) - k) ≠ 0 := by exact_mod_cast h3.ne'
    have hκc : (κ : ℂ) ≠ 0 := by exact_mod_cast hκ0.ne'
    have hune := ne_zero_of_re u hu0
    have hvne := ne_zero_of_re v hv0
    have hwne := ne_zero_of_re _ hw0
    have hκe : (κ : ℂ) * (3 - k) = k * (3 - k) - 0.75 := by
      rw [hκ]; push_cast; field_simp
    -- u = q / (κ p) with q = (3 - k) p² + 0.75
    set q : ℂ := (3 - k) * (p * p) + 0.75 with hq
    have hu' : u * (κ * p) = q := by
      rw [hu, hq]; push_cast; field_simp
    have hq0 : q ≠ 0 := by rw [← hu']; exact mul_ne_zero hune (mul_ne_zero hκc hp0)
    have hui : u⁻¹ * q = κ * p := by
      rw [← hu']; field_simp
    -- v = p (p² + k) / q
    have hv' : v * q = p * (p * p + k) := by
      rw [hv, add_mul, hui]
      push_cast
      have : (1 / (3 - (k : ℂ))) * p * q = p * (p * p) + 0.75 / (3 - k) * p := by
        rw [hq]; field_simp
      rw [this]
      have hk2 : (κ : ℂ) = k - 0.75 / (3 - k) := by rw [hκ]; push_cast; ring
      rw [hk2]; ring
    have hn0 : p * (p * p + k) ≠ 0 := by rw [← hv']; exact mul_ne_zero hvne hq0
    have hvi : v⁻¹ * (p * (p * p + k)) = q := by
      rw [← hv']; field_simp
    have hd : (p + v⁻¹) * (p * (p * p + k)) = p * p * (p * p) + 3 * (p * p) + 0.75 := by
      rw [add_mul, hvi, hq]; ring
    rw [← hd, ← div_div, div_right_comm, div_self hn0, one_div]
  rw [key]
  exact inv_re_pos _ hw0

/-- **C222, tails.**  Far from the peak - at a distance of `10 √2 sigma - gamma` or more - the Voigt profile is positive,
for `sigma > 0` and `gamma > 0`.  Missing from the full claim: the region around the peak; for very small `gamma` it is
false there (`voigt_positive_violated`). -/
theorem voigt_tail_positive_partial (x m sigma gamma : ℝ) (hs : 0 < sigma) (hg : 0 < gamma)
    (hfar : 10 * (Real.sqrt 2 * sigma) ≤ |x - m| + gamma) : 0 < voigt x m sigma gamma := by
  have hp : 0 < Real.sqrt 2 * sigma := by positivity
  obtain ⟨hpre, z, hre, him, hv, -, hz⟩ := voigt_defined x m sigma gamma hs hg.le
  have hzi : 0 < z.im := by
    by_contra hn
    push Not at hn
    nlinarith
  have hzf : 10 ≤ |z.re| + z.im := by
    rw [← hre, ← him, abs_mul, abs_of_pos hp, ← add_mul] at hfar
    exact le_of_mul_le_mul_right hfar hp
  obtain ⟨hne, he⟩ := hz hzf
  have hpre' : 0 < sigma * Real.sqrt (2 * Real.pi) := by have := Real.pi_pos; positivity
  suffices h : 0 < (faddeeva z).re by
    rw [← hv] at h
    exact (mul_pos_iff_of_pos_right hpre').1 h
  have hpi := Real.pi_gt_three
  have hpi' := Real.pi_lt_d2
  have hsq : Real.sqrt Real.pi ^ 2 = Real.pi := Real.sq_sqrt Real.pi_pos.le
  have hsp : 0 < Real.sqrt Real.pi := Real.sqrt_pos.2 Real.pi_pos
  have hlo : 1.7 < Real.sqrt Real.pi := by nlinarith
  have hhi : Real.sqrt Real.pi < 1.8 := by nlinarith
  set k : ℝ := 1.410474 * Real.sqrt Real.pi with hk
  have hk3 : k < 3 := by rw [hk]; nlinarith
  have hk2 : 2 < k := by rw [hk]; nlinarith
  have hkk : 0.75 < k * (3 - k) := by
    have : k < 2.6 := by rw [hk]; nlinarith
    nlinarith
  set p : ℂ := -I * z with hpz
  have hpre2 : 0 < p.re := by
    rw [hpz]; simpa [Complex.mul_re] using hzi
  have hlad := ladder_pos k hk3 hkk p hpre2
  have hpp : p * p = -(z * z) := by
    rw [hpz]; linear_combination (z * z) * Complex.I_mul_I
  have hval : faddeeva z = ((1 / Real.sqrt Real.pi : ℝ) : ℂ) * (p * (p * p + k) / (p * p * (p * p) + 3 * (p * p) + 0.75)) := by
    have hden : p * p * (p * p) + 3 * (p * p) + 0.75 = ((0.75 : ℚ) : ℂ) + z * z * (z * z - (3 : ℚ)) := by
      rw [hpp]; push_cast; ring
    rw [hden]
    apply mul_right_cancel₀ hne
    rw [he, mul_assoc (((1 / Real.sqrt Real.pi : ℝ) : ℂ)), div_mul_cancel₀ _ hne, hpp, hpz, hk]
    have hc : ((1 / Real.sqrt Real.pi : ℝ) : ℂ) * ((Real.sqrt Real.pi : ℝ) : ℂ) = 1 := by
      rw [← Complex.ofReal_mul, one_div, inv_mul_cancel₀ hsp.ne']; rfl
    push_cast at hc ⊢
    linear_combination (I * z * 1.410474) * hc
  rw [hval, Complex.re_ofReal_mul]
  have : 0 < 1 / Real.sqrt Real.pi := by positivity
  exact mul_pos this hlad

/-- Not vacuous: `sigma = gamma = 1` at a distance of 20. -/
example : 10 * (Real.sqrt 2 * 1) ≤ |(20 : ℝ) - 0| + 1 := by
  have : Real.sqrt 2 < 1.5 := by rw [Real.sqrt_lt' (by norm_num)]; norm_num
  norm_num
  linarith

/-! ## C222 near the peak -/

/-- Complex numbers with rational parts, to compute with. -/
def cmul (a b : ℚ × ℚ) : ℚ × ℚ := (a.1 * b.1 - a.2 * b.2, a.1 * b.2 + a.2 * b.1)

noncomputable def cq (a : ℚ × ℚ) : ℂ := (a.1 : ℂ) + (a.2 : ℂ) * I

theorem cq_mul (a b : ℚ × ℚ) : cq (cmul a b) = cq a * cq b := by
  simp only [cq, cmul]
  push_cast
  linear_combination (-(a.2 : ℂ) * b.2) * Complex.I_mul_I

def hornerAltQ : List (ℚ × ℚ) → ℚ × ℚ → ℚ × ℚ
  | [], _ => (0, 0)
  | (a, b) :: l, Z =>
    let h := cmul (hornerAltQ l Z) Z
    let g := cmul (h.1, h.2 + b) Z
    (g.1 + a, g.2)

def hornerCQ : List ℚ → ℚ × ℚ → ℚ × ℚ
  | [], _ => (0, 0)
  | b :: l, t =>
    let h := cmul (hornerCQ l t) t
    (h.1 + b, h.2)

theorem hornerAlt_cq (l : List (ℚ × ℚ)) (Z : ℚ × ℚ) : hornerAlt l (cq Z) = cq (hornerAltQ l Z) := by
  induction l with
  | nil => simp [hornerAlt, hornerAltQ, cq]
  | cons p l ih =>
    obtain ⟨a, b⟩ := p
    have h1 : cq (hornerAltQ ((a, b) :: l) Z) =
        cq (cmul ((cmul (hornerAltQ l Z) Z).1, (cmul (hornerAltQ l Z) Z).2 + b) Z) + a := by
      simp only [hornerAltQ, cq]; push_cast; ring
    have h2 : cq ((cmul (hornerAltQ l Z) Z).1, (cmul (hornerAltQ l Z) Z).2 + b) = cq (cmul (hornerAltQ l Z) Z) + b * I := by
      simp only [cq]; push_cast; ring
    rw [h1, cq_mul, h2, cq_mul, ← ih]
    rfl

theorem horner_cq (l : List ℚ) (t : ℚ × ℚ) : horner l (cq t) = cq (hornerCQ l t) := by
  induction l with
  | nil => simp [horner, hornerCQ, cq]
  | cons b l ih =>
    have h1 : cq (hornerCQ (b :: l) t) = cq (cmul (hornerCQ l t) t) + b := by
      simp only [hornerCQ, cq]; push_cast; ring
    rw [h1, cq_mul, ← ih]
    rfl

theorem div_re_neg (a b : ℚ × ℚ) (h : a.1 * b.1 + a.2 * b.2 < 0) : (cq a / cq b).re < 0 := by
  have hre : ∀ q : ℚ × ℚ, (cq q).re = q.1 ∧ (cq q).im = q.2 := by
    intro q
    have : cq q = ⟨(q.1 : ℝ), (q.2 : ℝ)⟩ := by
      apply Complex.ext <;> simp [cq]
    rw [this]; exact ⟨rfl, rfl⟩
  have hb : cq b ≠ 0 := by
    intro h0
    have h1 := (hre b).1
    have h2 := (hre b).2
    rw [h0] at h1 h2
    have h3 : b.1 = 0 := by exact_mod_cast h1.symm
    have h4 : b.2 = 0 := by exact_mod_cast h2.symm
    rw [h3, h4] at h
    simp at h
  rw [Complex.div_re, (hre a).1, (hre a).2, (hre b).1, (hre b).2, ← add_div]
  refine div_neg_of_neg_of_pos ?_ (Complex.normSq_pos.2 hb)
  exact_mod_cast h

/-- **C222 fails for very small `gamma`.**  With `√2 sigma = 1` and `gamma = 1e-13`, the value at a distance of 6.1 from
`m` is negative. -/
theorem voigt_positive_violated :
    ∃ x m sigma gamma : ℝ, 0 < sigma ∧ 0 < gamma ∧ voigt x m sigma gamma < 0 := by
  refine ⟨6.1, 0, 1 / Real.sqrt 2, 1e-13, by positivity, by norm_num, ?_⟩
  have h2 : Real.sqrt 2 ≠ 0 := by positivity
  have hz : (((6.1 - 0 : ℝ) : ℂ) + I * ((1e-13 : ℝ) : ℂ)) / (((Real.sqrt 2 : ℝ) : ℂ) * ((1 / Real.sqrt 2 : ℝ) : ℂ)) =
      cq (6.1, 1e-13) := by
    rw [← Complex.ofReal_mul, mul_one_div_cancel h2]
    simp only [cq]
    push_cast
    ring
  have hneg : (faddeeva (cq (6.1, 1e-13))).re < 0 := by
    have hre : (cq (6.1, 1e-13)).re = 6.1 := by simp [cq]
    have him : (cq (6.1, 1e-13)).im = 1e-13 := by simp [cq]
    unfold faddeeva
    rw [if_pos (by rw [hre, him]; norm_num [abs_of_pos])]
    unfold faddeevaNear
    dsimp only
    have hZ : cq (6.1, 1e-13) + ((1.35 : ℚ) : ℂ) * I = cq (6.1, 1e-13 + 1.35) := by
      simp only [cq]; push_cast; ring
    rw [hZ, ← cq_mul, hornerAlt_cq, horner_cq]
    exact div_re_neg _ _ (by decide +kernel)
  unfold voigt
  dsimp only
  rw [hz]
  have : 0 < 1 / Real.sqrt 2 * Real.sqrt (2 * Real.pi) := by have := Real.pi_pos; positivity
  exact div_neg_of_neg_of_pos hneg this

/-- **C222 fails for `gamma = 0`.**  The value is zero at a distance of `10 √2 sigma` or more, and its logarithm not a
number to fit with. -/
theorem voigt_zero_violated (x m sigma : ℝ) (hs : 0 < sigma) (hfar : 10 * (Real.sqrt 2 * sigma) ≤ |x - m|) :
    voigt x m sigma 0 = 0 := by
  have hp : 0 < Real.sqrt 2 * sigma := by positivity
  obtain ⟨hpre, z, hre, him, hv, -, hz⟩ := voigt_defined x m sigma 0 hs le_rfl
  have hzi : z.im = 0 := by
    rcases mul_eq_zero.1 him with h | h
    · exact h
    · exact absurd h hp.ne'
  have hzf : 10 ≤ |z.re| + z.im := by
    rw [← hre, abs_mul, abs_of_pos hp] at hfar
    have := le_of_mul_le_mul_right hfar hp
    rw [hzi]; linarith
  have hzr : z = (z.re : ℂ) := by apply Complex.ext <;> simp [hzi]
  have hw : (faddeeva z).re = 0 := by
    have hc : ¬(|z.re| + z.im < 10 ∧ z.im < 10) := fun h => absurd h.1 (not_lt.2 hzf)
    unfold faddeeva
    rw [if_neg hc]
    unfold faddeevaFar
    set t := z.re with ht
    have hval : I * z * (z * z * ((1 / Real.sqrt Real.pi : ℝ) : ℂ) - (1.410474 : ℚ)) / ((0.75 : ℚ) + z * z * (z * z - (3 : ℚ))) =
        I * ((t * (t * t * (1 / Real.sqrt Real.pi) - 1.410474) / (0.75 + t * t * (t * t - 3)) : ℝ) : ℂ) := by
      rw [hzr]
      push_cast
      ring
    rw [hval, mul_comm, Complex.re_ofReal_mul, Complex.I_re, mul_zero]
  rw [hw] at hv
  rcases mul_eq_zero.1 hv with h | h
  · exact h
  · exact absurd h hpre

end Zfit.Phys
