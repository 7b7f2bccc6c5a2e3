import Verif.Num.ExpModel
import Mathlib.MeasureTheory.Integral.IntervalIntegral.FundThmCalculus
import Mathlib.Analysis.SpecialFunctions.ExpDeriv
import Mathlib.Tactic.FieldSimp
import Mathlib.Tactic.NormNum

/-! Properties of the exponential pdf (C63). -/

namespace Zfit.Num

open Zfit

/-- The integral of `exp (lam x)` over the pieces. -/
noncomputable def trueIntegral (lam : ℝ) (ps : Pieces) : ℝ := (ps.map fun p => ∫ x in p.1..p.2, Real.exp (lam * x)).sum

theorem exp_anti (lam : ℝ) (h : lam ≠ 0) (a b : ℝ) :
    ∫ x in a..b, Real.exp (lam * x) = Real.exp (lam * b) / lam - Real.exp (lam * a) / lam := by
  have hd : ∀ x, HasDerivAt (fun x => Real.exp (lam * x) / lam) (Real.exp (lam * x)) x := by
    intro x
    have h1 := (((hasDerivAt_id x).const_mul lam).exp).div_const lam
    refine h1.congr_deriv ?_
    simp only [id_eq, mul_one]
    field_simp
  have hc : Continuous fun x => Real.exp (lam * x) := Real.continuous_exp.comp (continuous_const.mul continuous_id)
  exact intervalIntegral.integral_eq_sub_of_hasDerivAt (fun x _ => hd x) (hc.intervalIntegrable a b)

theorem exp_shift (lam s x : ℝ) : Real.exp (lam * (x - s)) = Real.exp (lam * x) * Real.exp (-(lam * s)) := by
  rw [← Real.exp_add]
  congr 1
  ring

theorem expIntegral_eq (lam : ℝ) (h : lam ≠ 0) (s : ℝ) (ps : Pieces) :
    expIntegral lam s ps = some (trueIntegral lam ps * Real.exp (-(lam * s))) := by
  induction ps with
  | nil => simp [expIntegral, trueIntegral]
  | cons p ps ih =>
    simp only [expIntegral, ih, expPiece, if_neg h, trueIntegral, List.map_cons, List.sum_cons, exp_anti lam h]
    simp only [exp_shift lam s, Option.bind_eq_bind, Option.bind_some, Option.pure_def]
    congr 1
    ring

theorem exp_pos_integral (lam : ℝ) (h : lam ≠ 0) (ps : Pieces) (hp : ∀ p ∈ ps, p.1 < p.2) (hne : ps ≠ []) :
    0 < trueIntegral lam ps := by
  have hpos : ∀ p : ℝ × ℝ, p.1 < p.2 → 0 < ∫ x in p.1..p.2, Real.exp (lam * x) := by
    intro p hp
    rw [exp_anti lam h, ← sub_div]
    rcases lt_or_gt_of_ne h with hl | hl
    · apply div_pos_of_neg_of_neg _ hl
      rw [sub_neg, Real.exp_lt_exp]
      nlinarith
    · apply div_pos _ hl
      rw [sub_pos, Real.exp_lt_exp]
      nlinarith
  induction ps with
  | nil => exact (hne rfl).elim
  | cons p ps ih =>
    have h1 := hpos p (hp p List.mem_cons_self)
    unfold trueIntegral
    rw [List.map_cons, List.sum_cons]
    by_cases he : ps = []
    · subst he
      simpa using h1
    · have h2 := ih (fun q hq => hp q (List.mem_cons_of_mem _ hq)) he
      unfold trueIntegral at h2
      linarith

/-- A norm as the property needs it: at least one piece, all of positive length. -/
def ProperNorm (norm : Pieces) : Prop := norm ≠ [] ∧ ∀ p ∈ norm, p.1 < p.2

theorem nanDiv_eq (lam s num : ℝ) (h : lam ≠ 0) (norm : Pieces) (hn : ProperNorm norm) :
    nanDiv (some (num * Real.exp (-(lam * s)))) (expIntegral lam s norm) = some (num / trueIntegral lam norm) := by
  have hp := exp_pos_integral lam h norm hn.2 hn.1
  have he := Real.exp_pos (-(lam * s))
  rw [expIntegral_eq lam h]
  unfold nanDiv
  simp only [Option.bind_eq_bind, Option.bind_some, Option.pure_def]
  rw [if_neg (mul_pos hp he).ne']
  congr 1
  field_simp

/-- C63: after any history of calls, failing or not, with any norms, the normalised density is
`exp (lam x) / ∫ exp (lam t) dt` over the norm: the shift cannot be seen. -/
theorem exponential_pdf (lam : ℝ) (h : lam ≠ 0) (history : List ExpCall) (x : ℝ) (norm : Pieces) (hn : ProperNorm norm) :
    (expCall lam (expHistory lam history) (.pdf x norm none)).1
      = .ok (some (Real.exp (lam * x) / trueIntegral lam norm)) := by
  simp only [expCall, withShift, if_neg hn.1, expUnnorm, exp_shift lam (shiftOf norm) x]
  rw [nanDiv_eq lam (shiftOf norm) _ h norm hn]

/-- C63: the same for `integrate`: the integral of the density over the limits. -/
theorem exponential_integrate (lam : ℝ) (h : lam ≠ 0) (history : List ExpCall) (limits norm : Pieces) (hn : ProperNorm norm) :
    (expCall lam (expHistory lam history) (.integrate limits norm none)).1
      = .ok (some (trueIntegral lam limits / trueIntegral lam norm)) := by
  simp only [expCall, withShift, if_neg hn.1, expIntegral_eq lam h (shiftOf norm) limits]
  rw [nanDiv_eq lam (shiftOf norm) _ h norm hn]

/-- C63: the density is normalised. -/
theorem exponential_normalised (lam : ℝ) (h : lam ≠ 0) (history : List ExpCall) (norm : Pieces) (hn : ProperNorm norm) :
    (expCall lam (expHistory lam history) (.integrate norm norm none)).1 = .ok (some 1) := by
  rw [exponential_integrate lam h history norm norm hn, div_self (exp_pos_integral lam h norm hn.2 hn.1).ne']

/-- The call does not fail. -/
def ExpCall.succeeds : ExpCall → Prop
  | .pdf _ _ fails => fails = none
  | .integrate _ _ fails => fails = none

/-- C63, partially: the shift is restored after calls that succeed. Missing from the full claim: the cases of `shift_restored_violated`,
`exponential_zero_violated`. -/
theorem shift_restored_partial (lam : ℝ) (s : ℝ) (c : ExpCall) (hc : c.succeeds) : (expCall lam s c).2 = s := by
  cases c with
  | pdf x norm fails =>
    simp only [ExpCall.succeeds] at hc
    subst hc
    simp only [expCall, withShift]
    split <;> rfl
  | integrate limits norm fails =>
    simp only [ExpCall.succeeds] at hc
    subst hc
    simp only [expCall, withShift]
    split <;> rfl

/-- C63: after any number of calls that succeed, the unnormalised density is `exp (lam x)` and unnormalised integrals are
integrals of it. Missing from the full claim: the cases of `shift_restored_violated`, `exponential_zero_violated`. -/
theorem exponential_unnormalised_partial (lam : ℝ) (h : lam ≠ 0) (history : List ExpCall) (hh : ∀ c ∈ history, c.succeeds)
    (x : ℝ) (limits : Pieces) :
    (expCall lam (expHistory lam history) (.pdf x [] none)).1 = .ok (some (Real.exp (lam * x))) ∧
    (expCall lam (expHistory lam history) (.integrate limits [] none)).1 = .ok (some (trueIntegral lam limits)) := by
  have hs : expHistory lam history = 0 := by
    unfold expHistory
    induction history with
    | nil => rfl
    | cons c cs ih =>
      rw [List.foldl_cons, shift_restored_partial lam 0 c (hh c List.mem_cons_self)]
      exact ih (fun d hd => hh d (List.mem_cons_of_mem _ hd))
  rw [hs]
  simp [expCall, withShift, expUnnorm, expIntegral_eq lam h]

/-- C63 fails after an exception: the shift of the failed call stays, and the unnormalised density at 0 is `exp (-1)`
instead of 1. -/
theorem shift_restored_violated :
    (expCall 1 (expHistory 1 []) (.pdf 0 [] none)).1 = .ok (some 1) ∧
    (expCall 1 (expHistory 1 [.pdf 0 [(0, 2)] (some .invalidArgument)]) (.pdf 0 [] none)).1 = .ok (some (Real.exp (-1))) := by
  simp [expCall, expHistory, withShift, expUnnorm, shiftOf]

/-- C63 does not extend to `lambda = 0`: the density is uniform then, but every value is NaN. -/
theorem exponential_zero_violated (x : ℝ) :
    (expCall 0 (expHistory 0 []) (.pdf x [(0, 2)] none)).1 = .ok none ∧ trueIntegral 0 [(0, 2)] = 2 := by
  constructor
  · simp [expCall, expHistory, withShift, expIntegral, expPiece, nanDiv]
  · simp [trueIntegral]

/-- Hypotheses met: two pieces. -/
example : ProperNorm [(0, 1), (2, 5)] := by
  refine ⟨by simp, ?_⟩
  intro p hp
  simp only [List.mem_cons, List.not_mem_nil, or_false] at hp
  rcases hp with rfl | rfl <;> norm_num

end Zfit.Num
