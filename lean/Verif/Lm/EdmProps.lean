import Verif.Lm.Props

/-! C77, C78: what a NaN does to a step, and what a valid result says about the estimated distance to the minimum. -/

namespace Zfit.Lm

open Zfit Matrix

variable {σ K : Type} {n : ℕ} [Field K] [LinearOrder K]

/-- C77. A try at which the loss is NaN is never taken: the best steps found so far stay as they are, the damping grows by the
factor 11, and the search goes on with it unless the damping had just been lowered with success. -/
theorem lm_nan_raises_damping (c : Cfg K n) (ev : Ev σ K n) (x : Fin n → K) (init : Option K) (g : Fin n → K)
    (H : Matrix (Fin n) (Fin n) K) (s s' : σ) (t : Tries K n) (h : Fin n → K) (hs : c.solve (damped H t.L) (-g) = .ok h)
    (hv : ev.value s (x + h) = (s', .ok none)) :
    ∃ t', oneTry c ev x init g H s t = (s', .ok (t', decide (t.dir = .better))) ∧ t'.best = t.best ∧ t'.scary = t.scary ∧
      t'.L = 11 * t.L ∧ (t.dir ≠ .better → t'.dir = .worse) := by
  simp only [oneTry, hs, hv, notFinite]
  by_cases hd : t.dir = .better
  · simp only [hd, if_true, decide_true]
    exact ⟨_, rfl, rfl, rfl, by simp [lup, mul_comm], fun h => absurd rfl h⟩
  · simp only [hd, if_false, decide_false]
    exact ⟨_, rfl, rfl, rfl, by simp [lup, mul_comm], fun _ => rfl⟩

/-- C77. The evaluator answers a NaN of the loss with NaN as long as there was no number before; a NaN found by the numeric
checks of the backend raises then. Neither is taken for a number. -/
theorem minEv_first_nan (c : Min.Cfg K) (val : (Fin n → K) → Min.Out K Unit) (vg : (Fin n → K) → Min.Out (K × List K) (Option K))
    (hs : (Fin n → K) → Min.Out (List (List K)) Unit) (params : List K) (x : Fin n → K) (hx : val x = .nan () ∨ val x = .invalid)
    (v : Option K) (h : ((minEv c val vg hs).value (Min.start params) x).2 = .ok v) : v = none := by
  simp only [minEv, Min.request] at h
  rcases hc : Min.counting c (.value (List.ofFn x) (val x)) (Min.start params) with ⟨s', e⟩
  rw [hc] at h
  have hl : s'.lastValue = none := by
    simp only [Min.counting, Min.tick] at hc
    split at hc
    · cases hc; rfl
    · split at hc <;> cases hc <;> rfl
  cases e with
  | some e => simp at h
  | none =>
    rcases hx with hx | hx
    · simp only [hx, Min.body, Min.valueBody, Min.minimizeNan] at h
      have hl' : (Min.St.countF { s' with params := List.ofFn x }).lastValue = none := by
        unfold Min.St.countF; split <;> exact hl
      by_cases hn : (Min.St.countF { s' with params := List.ofFn x }).nanCount + 1 < c.tol
      · simp only [hn, if_true, hl', Min.firstLoss] at h
        simp [Except.map, bind, Except.bind, pure, Except.pure] at h
        exact h.symm
      · simp only [hn, if_false, Except.map] at h
        cases h
    · simp only [hx, Min.body, Min.valueBody, Min.minimizeNan] at h
      have hl' : (Min.St.countF { s' with params := List.ofFn x }).lastValue = none := by
        unfold Min.St.countF; split <;> exact hl
      by_cases hp : c.doPrint = true
      · simp only [hp, if_true] at h; cases h
      · simp only [hp] at h
        by_cases hn : (Min.St.countF { s' with params := List.ofFn x }).nanCount + 1 < c.tol
        · simp only [hn, if_true, hl', Min.firstLoss] at h
          simp [Except.map, bind, Except.bind] at h
        · simp [hn, Except.map] at h

/-- C78. With the criterion EDM and a tolerance of at most 999999, a valid result means that the damped Hessian one step
before could be inverted and that its EDM with the gradient there is not negative and below the tolerance: a singular
matrix or a negative EDM never counts as converged. Missing from the full claim: the cases of `lm_valid_far_from_minimum_violated`. -/
theorem lm_valid_edm_partial [IsStrictOrderedRing K] (j : Job σ K n) (f : (Fin n → K) → K) (hev : Honest j.ev f) (hclip : ∀ x, f (j.clip x) = f x)
    (solve : Matrix (Fin n) (Fin n) K → (Fin n → K) → Except Err (Fin n → K)) (hcrit : j.crit = edm solve)
    (htol : j.tol ≤ 999999) (maxiter : ℕ) (s : σ) (x : Fin n → K) (r : Result K n)
    (h : (minimize j maxiter s x).2 = .ok r) (hvalid : r.valid = true) :
    ∃ y g H L z, DerivativesAt j.ev y g H ∧ solve (damped H L) g = .ok z ∧ r.edm = some (g ⬝ᵥ z / 2) ∧
      0 ≤ g ⬝ᵥ z / 2 ∧ g ⬝ᵥ z / 2 < j.tol := by
  obtain ⟨x', e, _, he, y, h', g, H, L, _, hd, hc⟩ := lm_edm_is_of_previous_point_partial j maxiter s x r h
  obtain ⟨hsound, _⟩ := lm_never_worse_partial j f hev hclip maxiter s x r h
  obtain ⟨e', he', hv⟩ := hsound.verdict
  rw [he] at he'
  simp only [Option.some.injEq] at he'
  subst he'
  have hlt := hv.1 hvalid
  rw [hcrit] at hc
  simp only [edm] at hc
  cases hs : solve (damped H L) g with
  | error err =>
    rw [hs] at hc
    simp only [Except.ok.injEq] at hc
    rw [← hc] at hlt
    exact absurd hlt (not_lt.2 htol)
  | ok z =>
    rw [hs] at hc
    simp only [Except.ok.injEq] at hc
    by_cases hn : g ⬝ᵥ z / 2 < 0
    · rw [if_pos hn] at hc
      rw [← hc] at hlt
      exact absurd hlt (not_lt.2 htol)
    · rw [if_neg hn] at hc
      subst hc
      exact ⟨y, g, H, L, z, hd, hs, he, not_lt.1 hn, hlt⟩

/-- C78. With the criterion EDM, what a result of Levenberg-Marquardt reports, valid or not: half the scalar product of the
gradient one step before with the solution for the damped Hessian there, if there is one and this is not negative, and
999999 otherwise. -/
theorem lm_edm_reported [IsStrictOrderedRing K] (j : Job σ K n)
    (solve : Matrix (Fin n) (Fin n) K → (Fin n → K) → Except Err (Fin n → K)) (hcrit : j.crit = edm solve)
    (maxiter : ℕ) (s : σ) (x : Fin n → K) (r : Result K n) (h : (minimize j maxiter s x).2 = .ok r) :
    ∃ y g H L, DerivativesAt j.ev y g H ∧
      ((∃ z, solve (damped H L) g = .ok z ∧ 0 ≤ g ⬝ᵥ z / 2 ∧ r.edm = some (g ⬝ᵥ z / 2)) ∨
        ((∀ z, solve (damped H L) g = .ok z → g ⬝ᵥ z / 2 < 0) ∧ r.edm = some 999999)) := by
  obtain ⟨x', e, _, he, y, h', g, H, L, _, hd, hc⟩ := lm_edm_is_of_previous_point_partial j maxiter s x r h
  refine ⟨y, g, H, L, hd, ?_⟩
  rw [hcrit] at hc
  simp only [edm] at hc
  cases hs : solve (damped H L) g with
  | error err =>
    rw [hs] at hc
    simp only [Except.ok.injEq] at hc
    refine Or.inr ⟨fun z hz => ?_, ?_⟩
    · cases hz
    · rw [he, hc]
  | ok z =>
    rw [hs] at hc
    simp only [Except.ok.injEq] at hc
    by_cases hn : g ⬝ᵥ z / 2 < 0
    · rw [if_pos hn] at hc
      refine Or.inr ⟨fun z' hz => ?_, ?_⟩
      · cases hz
        exact hn
      · rw [he, hc]
    · rw [if_neg hn] at hc
      exact Or.inl ⟨z, rfl, not_lt.1 hn, by rw [he, hc]⟩

/-- The hypotheses are met: the job of the examples has the criterion EDM, a small tolerance and a valid result. -/
example : (quarticJob 1).crit = edm solve2 ∧ (quarticJob 1).tol ≤ 999999 ∧
    ((minimize (quarticJob 1) 6 (Min.start []) ![1, 4]).2.map fun r => r.valid) = .ok true :=
  ⟨rfl, by decide +kernel, by decide +kernel⟩

/-- The hypotheses of `lm_nan_raises_damping` are met by the loss with a gap: a first try from 0 lands in it. -/
example : ∃ h, gapJob.cfg.solve (damped (fun _ _ => 0) 4) (-![-1 / 100]) = .ok h ∧
    (gapJob.ev.value (Min.start []) (![0] + h)).2 = .ok none :=
  ⟨fun _ => 1 / 400, by simp [gapJob, solve1, damped]; funext i; norm_num, by decide +kernel⟩

/-- C78.  The derivatives that the evaluator of the minimisers hands to the algorithm, from which the distance to the minimum is estimated, are
those of the loss at the point asked for, entry by entry. -/
theorem minEv_derivatives (c : Min.Cfg K) (val : (Fin n → K) → Min.Out K Unit) (f : (Fin n → K) → K) (g : (Fin n → K) → Fin n → K)
    (H : (Fin n → K) → Fin n → Fin n → K) (s : Min.St K) (x : Fin n → K) :
    (∀ r, ((minEv c val (fun x => .ok (f x, List.ofFn (g x))) (fun x => .ok (List.ofFn fun i => List.ofFn (H x i)))).valueGradient s x).2 = .ok r →
      r = (some (f x), g x)) ∧
    (∀ r, ((minEv c val (fun x => .ok (f x, List.ofFn (g x))) (fun x => .ok (List.ofFn fun i => List.ofFn (H x i)))).hessian s x).2 = .ok r →
      r = H x) := by
  constructor
  · intro r h
    simp only [minEv, Min.request] at h
    rcases hc : Min.counting c (.valueGradient (List.ofFn x) (.ok (f x, List.ofFn (g x)))) s with ⟨s', e⟩
    rw [hc] at h
    cases e with
    | some e => simp at h
    | none =>
      simp only [Min.body, Min.valueGradientBody, Except.ok.injEq] at h
      subst h
      simp
  · intro r h
    simp only [minEv, Min.request] at h
    rcases hc : Min.counting c (.hessian (List.ofFn x) (.ok (List.ofFn fun i => List.ofFn (H x i)))) s with ⟨s', e⟩
    rw [hc] at h
    cases e with
    | some e => simp at h
    | none =>
      simp only [Min.body, Min.hessianBody] at h
      have h' := Except.ok.inj h
      rw [← h']
      funext i j
      simp

end Zfit.Lm
