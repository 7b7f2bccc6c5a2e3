import Verif.Num.BernLemmas
import Mathlib.Tactic.NormNum

/-! Properties of the Bernstein pdf (C61, C62). -/

namespace Zfit.Num

open Zfit

/-- The Bernstein polynomial with the given coefficients. -/
noncomputable def bernstein (coeffs : List ℝ) (x : ℝ) : ℝ :=
  ∑ k ∈ Finset.range coeffs.length,
    coeffs.getD k 0 * ((coeffs.length - 1).choose k) * x ^ k * (1 - x) ^ (coeffs.length - 1 - k)

theorem bernstein_eq_bz (coeffs : List ℝ) (h : coeffs ≠ []) (x : ℝ) :
    bernstein coeffs x = bz (coeffs.length - 1) (fun k => coeffs.getD k 0) x := by
  have hl : 0 < coeffs.length := List.length_pos_iff.2 h
  rw [bz_sum, Nat.sub_add_cancel hl]
  rfl

/-- C62: `de_casteljau` evaluates the Bernstein polynomial, for every degree, coefficients and point; without coefficients
it raises. -/
theorem casteljau_value (coeffs : List ℝ) (x : ℝ) :
    deCasteljau x coeffs = if coeffs = [] then .error .valueError else .ok (bernstein coeffs x) := by
  by_cases h : coeffs = []
  · subst h; rfl
  · rw [if_neg h, deCasteljau_eq x coeffs h, bernstein_eq_bz coeffs h]

theorem bz_bounds (n : ℕ) (c : ℕ → ℝ) (x lo hi : ℝ) (h0 : 0 ≤ x) (h1 : x ≤ 1) (hc : ∀ k ≤ n, lo ≤ c k ∧ c k ≤ hi) :
    lo ≤ bz n c x ∧ bz n c x ≤ hi := by
  induction n generalizing c with
  | zero => exact hc 0 (Nat.le_refl 0)
  | succ n ih =>
    obtain ⟨a1, a2⟩ := ih c (fun k hk => hc k (by omega))
    obtain ⟨b1, b2⟩ := ih (fun k => c (k + 1)) (fun k hk => hc (k + 1) (by omega))
    have hx : 0 ≤ 1 - x := by linarith
    rw [bz]
    constructor
    · nlinarith [mul_le_mul_of_nonneg_right a1 hx, mul_le_mul_of_nonneg_right b1 h0]
    · nlinarith [mul_le_mul_of_nonneg_right a2 hx, mul_le_mul_of_nonneg_right b2 h0]

/-- C62: within [0, 1] the value lies between any bounds of the coefficients (the smallest and the largest). -/
theorem bernstein_bounds (coeffs : List ℝ) (h : coeffs ≠ []) (x lo hi : ℝ) (h0 : 0 ≤ x) (h1 : x ≤ 1)
    (hc : ∀ c ∈ coeffs, lo ≤ c ∧ c ≤ hi) : ∃ v, deCasteljau x coeffs = .ok v ∧ lo ≤ v ∧ v ≤ hi := by
  refine ⟨_, deCasteljau_eq x coeffs h, ?_⟩
  have hl : 0 < coeffs.length := List.length_pos_iff.2 h
  refine bz_bounds _ _ _ _ _ h0 h1 fun k hk => ?_
  rw [List.getD_eq_getElem _ _ (by omega)]
  exact hc _ (List.getElem_mem _)

/-- C62: with non-negative coefficients the density is non-negative everywhere in the space, and positive in its interior if
one of them is positive. -/
theorem bernstein_nonneg (m : PolyPdf) (hm : m.lo < m.hi) (hs : m.scale = true) (coeffs : List ℝ) (h : coeffs ≠ [])
    (hc : ∀ c ∈ coeffs, 0 ≤ c) (x : ℝ) (h0 : m.lo ≤ x) (h1 : x ≤ m.hi) :
    ∃ v, bernUnnormalized m coeffs x = .ok v ∧ 0 ≤ v ∧ ((∃ c ∈ coeffs, 0 < c) → m.lo < x → x < m.hi → 0 < v) := by
  have hw : 0 < m.hi - m.lo := by linarith
  have e : bernRescale m x = (x - m.lo) / (m.hi - m.lo) := by
    unfold bernRescale rescaleZeroOne
    rw [if_pos hs]
  refine ⟨bernstein coeffs (bernRescale m x), ?_, ?_, ?_⟩
  · unfold bernUnnormalized
    rw [casteljau_value, if_neg h]
  · rw [bernstein_eq_bz coeffs h]
    have hl : 0 < coeffs.length := List.length_pos_iff.2 h
    rw [bz_sum]
    refine Finset.sum_nonneg fun k hk => ?_
    rw [Finset.mem_range] at hk
    have hk0 : 0 ≤ coeffs.getD k 0 := by
      rw [List.getD_eq_getElem _ _ (by omega)]
      exact hc _ (List.getElem_mem _)
    have hx0 : 0 ≤ bernRescale m x := by rw [e]; exact div_nonneg (by linarith) hw.le
    have hx1 : 0 ≤ 1 - bernRescale m x := by
      rw [e, sub_nonneg, div_le_one hw]; linarith
    positivity
  · rintro ⟨c, hcm, hcp⟩ hlx hxh
    obtain ⟨k, hk, rfl⟩ := List.getElem_of_mem hcm
    have hx0 : 0 < bernRescale m x := by rw [e]; exact div_pos (by linarith) hw
    have hx1 : 0 < 1 - bernRescale m x := by
      rw [e, sub_pos, div_lt_one hw]; linarith
    unfold bernstein
    refine Finset.sum_pos' (fun i hi => ?_) ⟨k, Finset.mem_range.2 hk, ?_⟩
    · rw [Finset.mem_range] at hi
      have hk0 : 0 ≤ coeffs.getD i 0 := by
        rw [List.getD_eq_getElem _ _ hi]
        exact hc _ (List.getElem_mem _)
      positivity
    · rw [List.getD_eq_getElem _ _ hk]
      have : 0 < ((coeffs.length - 1).choose k : ℝ) := by
        exact_mod_cast Nat.choose_pos (by omega)
      positivity

theorem bz_zero (n : ℕ) (c : ℕ → ℝ) : bz n c 0 = c 0 := by
  induction n generalizing c with
  | zero => rfl
  | succ n ih => rw [bz, ih]; ring

theorem bz_one (n : ℕ) (c : ℕ → ℝ) : bz n c 1 = c n := by
  induction n generalizing c with
  | zero => rfl
  | succ n ih => rw [bz, ih (fun k => c (k + 1))]; ring

/-- C62: at the ends of the space the density is the first and the last coefficient. -/
theorem bernstein_ends (m : PolyPdf) (hm : m.lo < m.hi) (hs : m.scale = true) (c : ℝ) (cs : List ℝ) :
    bernUnnormalized m (c :: cs) m.lo = .ok c ∧ bernUnnormalized m (cs ++ [c]) m.hi = .ok c := by
  have hw : m.hi - m.lo ≠ 0 := by linarith
  constructor
  · have e : bernRescale m m.lo = 0 := by simp [bernRescale, rescaleZeroOne, hs]
    unfold bernUnnormalized
    rw [e, deCasteljau_eq _ _ (by simp), bz_zero]
    rfl
  · have e : bernRescale m m.hi = 1 := by simp [bernRescale, rescaleZeroOne, hs, hw]
    unfold bernUnnormalized
    rw [e, deCasteljau_eq _ _ (by simp), bz_one]
    congr 1
    simp

/-- A cubic meeting the hypotheses. -/
example : deCasteljau (1 / 2) [1, 3, 0, 2] = .ok (3 / 2) := by
  rw [casteljau_value, if_neg (by simp)]
  congr 1
  simp [bernstein, Finset.sum_range_succ, Nat.choose]
  norm_num

/-! ### the integral (C61) -/

theorem bernFromMin_eq (m : PolyPdf) (coeffs : List ℝ) (x : ℝ) :
    bernFromMin m coeffs x
      = .ok (bz coeffs.length (fun k => (coeffsInt coeffs).getD k 0) (rescaleZeroOne m x) * (m.hi - m.lo)) := by
  unfold bernFromMin
  rw [deCasteljau_eq _ _ (by rw [← List.length_pos_iff, coeffsInt_len]; omega), coeffsInt_len, Nat.add_sub_cancel]
  rfl

theorem bernIntegral_eq (m : PolyPdf) (hm : m.lo < m.hi) (coeffs : List ℝ) (hc : coeffs ≠ []) (a b : ℝ) :
    bernIntegral m coeffs a b = .ok (∫ x in a..b, bernstein coeffs (rescaleZeroOne m x)) := by
  unfold bernIntegral
  rw [bernFromMin_eq, bernFromMin_eq]
  have hl : 0 < coeffs.length := List.length_pos_iff.2 hc
  obtain ⟨n, hn⟩ : ∃ n, coeffs.length = n + 1 := ⟨coeffs.length - 1, by omega⟩
  have hw : m.hi - m.lo ≠ 0 := by linarith
  have hr : ∀ x, HasDerivAt (rescaleZeroOne m) (1 / (m.hi - m.lo)) x := fun x =>
    ((hasDerivAt_id x).sub_const m.lo).div_const (m.hi - m.lo)
  have hcr : Continuous (rescaleZeroOne m) := continuous_iff_continuousAt.2 fun x => (hr x).continuousAt
  have hd : ∀ y, (n + 1 : ℝ) * bz n (fun k => (coeffsInt coeffs).getD (k + 1) 0 - (coeffsInt coeffs).getD k 0) y
      = bernstein coeffs y := by
    intro y
    rw [bernstein_eq_bz coeffs hc, hn, Nat.add_sub_cancel, ← bz_const_mul]
    refine bz_congr _ _ _ _ fun k hk => ?_
    have hp : (n : ℝ) + 1 ≠ 0 := by positivity
    rw [coeffsInt_get coeffs (k + 1) (by omega), coeffsInt_get coeffs k (by omega), Finset.sum_range_succ, hn]
    push_cast
    field_simp
    ring
  have key := intervalIntegral.integral_eq_sub_of_hasDerivAt
    (f := fun x => bz (n + 1) (fun k => (coeffsInt coeffs).getD k 0) (rescaleZeroOne m x) * (m.hi - m.lo))
    (f' := fun x => bernstein coeffs (rescaleZeroOne m x)) (a := a) (b := b)
    (fun x _ => by
      have h := ((bz_hasDeriv n (fun k => (coeffsInt coeffs).getD k 0) (rescaleZeroOne m x)).comp x (hr x)).mul_const
        (m.hi - m.lo)
      rw [hd] at h
      have e : bernstein coeffs (rescaleZeroOne m x) * (1 / (m.hi - m.lo)) * (m.hi - m.lo)
          = bernstein coeffs (rescaleZeroOne m x) := by field_simp
      rw [e] at h
      exact h)
    (Continuous.intervalIntegrable (by
      have : bernstein coeffs = bz (coeffs.length - 1) (fun k => coeffs.getD k 0) :=
        funext (bernstein_eq_bz coeffs hc)
      rw [this]
      exact (bz_continuous _ _).comp hcr) a b)
  rw [key, hn]
  rfl

/-- C61 for Bernstein: with scaling, for every degree, coefficients and limits, the analytic integral is the integral of the
unnormalised density. -/
theorem bernstein_integral (m : PolyPdf) (hm : m.lo < m.hi) (hs : m.scale = true) (coeffs : List ℝ) (hc : coeffs ≠ [])
    (a b : ℝ) :
    ∃ p : ℝ → ℝ, (∀ x, bernUnnormalized m coeffs x = .ok (p x)) ∧ bernIntegral m coeffs a b = .ok (∫ x in a..b, p x) := by
  refine ⟨fun x => bernstein coeffs (rescaleZeroOne m x), fun x => ?_, bernIntegral_eq m hm coeffs hc a b⟩
  unfold bernUnnormalized bernRescale
  rw [if_pos hs, casteljau_value, if_neg hc]

/-- C61 for Bernstein fails without scaling: the integral is that of the scaled density.  The coefficients 0 and 1 give the
density x; on the space [0, 2] its integral over the space is 2 and the analytic integral 1. -/
theorem bernstein_integral_violated :
    bernIntegral ⟨0, 2, false⟩ [0, 1] 0 2 = .ok 1 ∧ (∀ x, bernUnnormalized ⟨0, 2, false⟩ [0, 1] x = .ok x) ∧
      ∫ x in (0 : ℝ)..2, x = 2 := by
  refine ⟨?_, ?_, ?_⟩
  · unfold bernIntegral
    rw [bernFromMin_eq, bernFromMin_eq]
    simp only [List.length_cons, List.length_nil, rescaleZeroOne]
    have h0 := coeffsInt_get [0, 1] 0 (by simp)
    have h1 := coeffsInt_get [0, 1] 1 (by simp)
    have h2 := coeffsInt_get [0, 1] 2 (by simp)
    simp only [bind, Except.bind, pure, Except.pure]
    congr 1
    simp only [Nat.zero_add, Nat.reduceAdd, bz, h0, h1, h2, Finset.sum_range_succ, Finset.sum_range_zero]
    norm_num
  · intro x
    unfold bernUnnormalized
    rw [casteljau_value, if_neg (by simp)]
    congr 1
    simp [bernstein, Finset.sum_range_succ, bernRescale]
  · have := intervalIntegral.integral_eq_sub_of_hasDerivAt (f := fun x : ℝ => x * x / 2) (f' := fun x => x) (a := 0) (b := 2)
      (fun x _ => by
        have h := ((hasDerivAt_id x).mul (hasDerivAt_id x)).div_const 2
        refine h.congr_deriv ?_
        simp)
      (continuous_id.intervalIntegrable 0 2)
    rw [this]
    norm_num

/-- A space meeting the hypotheses. -/
example : bernIntegral ⟨0, 10, true⟩ [1, 3] 0 10 = .ok 20 := by
  unfold bernIntegral
  rw [bernFromMin_eq, bernFromMin_eq]
  have h0 := coeffsInt_get [1, 3] 0 (by simp)
  have h1 := coeffsInt_get [1, 3] 1 (by simp)
  have h2 := coeffsInt_get [1, 3] 2 (by simp)
  simp only [bind, Except.bind, pure, Except.pure]
  congr 1
  simp only [List.length_cons, List.length_nil, rescaleZeroOne, Nat.zero_add, Nat.reduceAdd, bz, h0, h1, h2,
    Finset.sum_range_succ, Finset.sum_range_zero]
  norm_num

end Zfit.Num
