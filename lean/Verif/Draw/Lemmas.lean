import Verif.Draw.Spec
import Verif.Common.Except

namespace Zfit.Draw

open Zfit
open scoped ENNReal

theorem expect_pure {α : Type} (a : α) (f : α → ℝ≥0∞) : expect (PMF.pure a) f = f a := by
  unfold expect
  rw [tsum_eq_single a]
  · simp
  · intro b hb
    simp [PMF.pure_apply, hb]

theorem expect_bind {α β : Type} (p : PMF α) (g : α → PMF β) (f : β → ℝ≥0∞) :
    expect (p.bind g) f = expect p (fun a => expect (g a) f) := by
  unfold expect
  simp only [PMF.bind_apply, ← ENNReal.tsum_mul_right, ← ENNReal.tsum_mul_left]
  rw [ENNReal.tsum_comm]
  simp only [mul_assoc]

theorem expect_const {α : Type} (p : PMF α) (c : ℝ≥0∞) : expect p (fun _ => c) = c := by
  unfold expect
  rw [ENNReal.tsum_mul_right, p.tsum_coe, one_mul]

theorem expect_congr {α : Type} (p : PMF α) {f g : α → ℝ≥0∞} (h : ∀ a ∈ p.support, f a = g a) : expect p f = expect p g := by
  unfold expect
  refine tsum_congr (fun a => ?_)
  by_cases ha : p a = 0
  · simp [ha]
  · rw [h a ((p.mem_support_iff a).2 ha)]

theorem expect_add {α : Type} (p : PMF α) (f g : α → ℝ≥0∞) : expect p (fun a => f a + g a) = expect p f + expect p g := by
  unfold expect
  rw [← ENNReal.tsum_add]
  exact tsum_congr (fun a => mul_add _ _ _)

theorem expect_mul {α : Type} (p : PMF α) (f : α → ℝ≥0∞) (c : ℝ≥0∞) : expect p (fun a => f a * c) = expect p f * c := by
  unfold expect
  rw [← ENNReal.tsum_mul_right]
  exact tsum_congr (fun a => (mul_assoc _ _ _).symm)

variable {E : Type}

theorem expected_together [DecidableEq E] (ps : List (PMF (List E))) (e : E) :
    expected (together ps) e = (ps.map (fun p => expected p e)).sum := by
  induction ps with
  | nil => simp [together, expected, expect_pure]
  | cons p ps ih =>
    have h : ∀ a : List E, expect ((together ps).bind (fun b => PMF.pure (a ++ b))) (fun l => (l.count e : ℝ≥0∞))
        = (a.count e : ℝ≥0∞) + expected (together ps) e := by
      intro a
      rw [expect_bind]
      simp only [expect_pure, List.count_append, Nat.cast_add]
      rw [expect_add, expect_const]
      rfl
    rw [List.map_cons, List.sum_cons, ← ih]
    show expect (p.bind (fun a => (together ps).bind (fun b => PMF.pure (a ++ b)))) (fun l => (l.count e : ℝ≥0∞)) = _
    rw [expect_bind]
    simp only [h]
    rw [expect_add, expect_const]
    rfl

theorem mem_together {ps : List (PMF (List E))} {l : List E} (h : l ∈ (together ps).support) :
    ∃ ls : List (List E), l = ls.flatten ∧ List.Forall₂ (fun x p => x ∈ PMF.support p) ls ps := by
  induction ps generalizing l with
  | nil =>
    refine ⟨[], ?_, List.Forall₂.nil⟩
    simpa [together] using h
  | cons p ps ih =>
    unfold together at h
    rw [PMF.mem_support_bind_iff] at h
    obtain ⟨a, ha, h⟩ := h
    rw [PMF.mem_support_bind_iff] at h
    obtain ⟨b, hb, h⟩ := h
    obtain ⟨ls, rfl, hls⟩ := ih hb
    refine ⟨a :: ls, ?_, List.Forall₂.cons ha hls⟩
    simpa using h

end Zfit.Draw
