import Verif.Res.ErrModel
import Verif.Common.Except
import Mathlib.Tactic.NormNum
import Mathlib.Tactic.Ring
import Mathlib.Tactic.Positivity
import Mathlib.Analysis.SpecialFunctions.Log.Basic

/-! Properties of the settings of `compute_errors` (C56) and `errors` (C70). -/

namespace Zfit.Res

open Zfit

variable {M V R E : Type}

/-- The number of standard deviations a request asks for. -/
noncomputable def Request.asksSigma (chi : Chi2) (q : Request M V) : ℝ :=
  match q.cl, q.sigma with
  | some c, _ => √(chi.ppf c)
  | none, some s => s
  | none, none => 1

/-- The settings after `d` new minima were found: the confidence level, the method; the tolerance is multiplied once more
by `errordef` each time. -/
theorem errors_settings (chi : Chi2) (hybr : M) (errordef : ℝ) (profile : R → Settings M V → Profiled R E) (fuel : ℕ) :
    ∀ (r : R) (q : Request M V) (e : E) (r' : R) (s : Settings M V),
      computeErrors chi hybr errordef profile fuel r q = some (.ok (e, r', s)) →
      profile r' s = .errors e ∧ s.method = q.method.getD hybr ∧
      (∃ d, s.rtol = q.rtol.getD 0.003 * errordef ^ (d + 1) ∧
        (d = 0 → r' = r ∧ s.sigma = q.asksSigma chi ∧ s.covMethod = q.covMethod) ∧
        (0 < d → s.sigma = (match q.cl with | some c => √(chi.ppf c) | none => 1) ∧ s.covMethod = none)) := by
  induction fuel with
  | zero => intro r q e r' s h; cases h
  | succ fuel ih =>
    intro r q e r' s h
    rw [computeErrors] at h
    cases hs : settle chi hybr errordef q with
    | error e' => rw [hs] at h; cases h
    | ok s0 =>
      rw [hs] at h
      simp only at h
      have hs0 : s0.rtol = q.rtol.getD 0.003 * errordef ∧ s0.method = q.method.getD hybr ∧ s0.covMethod = q.covMethod ∧
          s0.sigma = q.asksSigma chi := by
        unfold settle at hs
        unfold Request.asksSigma
        rcases hc : q.cl with _ | c <;> rcases hg : q.sigma with _ | g <;> rw [hc, hg] at hs <;> cases hs <;>
          exact ⟨rfl, rfl, rfl, rfl⟩
      obtain ⟨a1, a2, a3, a4⟩ := hs0
      cases hp : profile r s0 with
      | errors e' =>
        rw [hp] at h
        cases h
        exact ⟨hp, a2, 0, by rw [a1]; ring, fun _ => ⟨rfl, a4, a3⟩, fun h => (Nat.lt_irrefl _ h).elim⟩
      | failed => rw [hp] at h; cases h
      | newMinimum r1 =>
        rw [hp] at h
        obtain ⟨b1, b2, d, b3, b4, b5⟩ := ih r1 (again q s0) e r' s h
        refine ⟨b1, ?_, d + 1, ?_, fun h => by omega, ?_⟩
        · rw [b2]
          exact a2
        · rw [b3]
          show s0.rtol * errordef ^ (d + 1) = _
          rw [a1]
          ring
        · intro _
          rcases Nat.eq_zero_or_pos d with hd | hd
          · obtain ⟨_, c2, c3⟩ := b4 hd
            refine ⟨?_, c3⟩
            rw [c2]
            unfold Request.asksSigma again
            rcases q.cl with _ | c <;> rfl
          · exact b5 hd

/-- C56, as far as it holds: errors requested by a confidence level (or with neither `cl` nor `sigma`) are computed for this
level and with the requested root finding method, on the result they are returned with, however many new minima were found;
with `errordef = 1` (chi2 losses) also with the requested tolerance. Missing from the full claim: the cases of
`errors_sigma_dropped_violated`. -/
theorem errors_as_requested_partial (chi : Chi2) (hybr : M) (errordef : ℝ) (profile : R → Settings M V → Profiled R E)
    (fuel : ℕ) (r : R) (q : Request M V) (hq : q.sigma = none) (e : E) (r' : R) (s : Settings M V)
    (h : computeErrors chi hybr errordef profile fuel r q = some (.ok (e, r', s))) :
    profile r' s = .errors e ∧ s.sigma = q.asksSigma chi ∧ s.method = q.method.getD hybr ∧
    (errordef = 1 → s.rtol = q.rtol.getD 0.003) := by
  obtain ⟨h1, h2, d, h3, h4, h5⟩ := errors_settings chi hybr errordef profile fuel r q e r' s h
  refine ⟨h1, ?_, h2, ?_⟩
  · rcases Nat.eq_zero_or_pos d with hd | hd
    · exact (h4 hd).2.1
    · rw [(h5 hd).1]
      unfold Request.asksSigma
      rw [hq]
      rcases q.cl with _ | c <;> rfl
  · intro he
    rw [h3, he]
    ring

/-- C56: asking for both a level and a number of standard deviations is refused. -/
theorem errors_both_rejected (chi : Chi2) (hybr : M) (errordef : ℝ) (profile : R → Settings M V → Profiled R E) (fuel : ℕ)
    (r : R) (q : Request M V) (hc : q.cl.isSome) (hs : q.sigma.isSome) :
    computeErrors chi hybr errordef profile (fuel + 1) r q = some (.error .valueError) := by
  obtain ⟨c, hc⟩ := Option.isSome_iff_exists.1 hc
  obtain ⟨s, hs⟩ := Option.isSome_iff_exists.1 hs
  rw [computeErrors]
  unfold settle
  rw [hc, hs]

/-- A stand-in with the shape of the distribution function of a chi-squared variable: it is increasing, 0 at 0, and tends
to 1; and its inverse. -/
noncomputable def exChi : Chi2 := ⟨fun x => 1 - Real.exp (-x), fun p => -Real.log (1 - p)⟩

/-- Profiling that finds a new minimum from result 0 and answers from result 1. -/
def exProfile : ℕ → Settings Unit Unit → Profiled ℕ Unit := fun r _ => if r = 0 then .newMinimum 1 else .errors ()

/-- A request by confidence level that runs into a new minimum (`errordef = 0.5`, as for likelihoods). -/
example : computeErrors exChi () 0.5 exProfile 2 0 ⟨some 0.5, none, none, none, none⟩ =
    some (.ok ((), 1, ⟨√(exChi.ppf 0.5), 0.003 * 0.5 * 0.5, (), none⟩)) := by
  simp [computeErrors, settle, exProfile, again]

/-- C56 fails for a number of standard deviations: after a new minimum, errors requested with `sigma=2` are computed with
one standard deviation, with another tolerance and with another covariance method. -/
theorem errors_sigma_dropped_violated :
    computeErrors exChi () 0.5 exProfile 2 0 ⟨none, some 2, some 0.1, none, some ()⟩ =
      some (.ok ((), 1, ⟨1, 0.1 * 0.5 * 0.5, (), none⟩)) ∧
    settle exChi () 0.5 (⟨none, some 2, some 0.1, none, some ()⟩ : Request Unit Unit) = .ok ⟨2, 0.1 * 0.5, (), some ()⟩ := by
  constructor
  · simp [computeErrors, settle, exProfile, again]
  · rfl

/-! ## C70 -/

/-- C70 fails, exactly: `errors(sigma=s)` gives the errors of √s standard deviations, because the distribution function of
the chi-squared distribution is taken at `s` instead of `s²`; it is right only for `s = 0` and `s = 1`. -/
theorem errors_sigma_is_root (chi : Chi2) (hinv : ∀ x, 0 ≤ x → chi.ppf (chi.cdf x) = x) (hybr : M) (errordef : ℝ) (s : ℝ)
    (hs : 0 ≤ s) :
    ∃ cl, errorsLevel chi none (some s) = .ok cl ∧
      (∀ rtol method cov, ∃ t : Settings M V, settle chi hybr errordef ⟨some cl, none, rtol, method, cov⟩ = .ok t ∧
        t.sigma = √s) ∧
      hesseSigma chi cl = √s ∧ (√s = s ↔ s = 0 ∨ s = 1) := by
  refine ⟨chi.cdf s, rfl, ?_, ?_, ?_⟩
  · intro rtol method cov
    exact ⟨_, rfl, by simp [hinv s hs]⟩
  · unfold hesseSigma
    rw [hinv s hs]
  · constructor
    · intro h
      have h2 : s * s = s := by
        have := Real.mul_self_sqrt hs
        rwa [h] at this
      have : s * (s - 1) = 0 := by linarith
      rcases mul_eq_zero.1 this with h | h
      · exact Or.inl h
      · exact Or.inr (by linarith)
    · rintro (rfl | rfl) <;> simp

/-- The hypothesis is met by a distribution of this shape. -/
example : ∀ x, 0 ≤ x → exChi.ppf (exChi.cdf x) = x := by
  intro x _
  simp [exChi]

/-- C70 fails: `errors(sigma=4)` gives the errors of two standard deviations. -/
theorem errors_sigma_violated (chi : Chi2) (hinv : ∀ x, 0 ≤ x → chi.ppf (chi.cdf x) = x) :
    ∃ cl, errorsLevel chi none (some 4) = .ok cl ∧
      (settle chi () (1 / 2) (⟨some cl, none, none, none, none⟩ : Request Unit Unit)).map (·.sigma) = .ok 2 := by
  refine ⟨_, rfl, ?_⟩
  show Except.ok (√(chi.ppf (chi.cdf 4))) = Except.ok 2
  rw [hinv 4 (by norm_num), show (4 : ℝ) = 2 ^ 2 by norm_num, Real.sqrt_sq (by norm_num)]

/-- C70: what does hold: `errors(cl)` and `hesse(cl)` use the same number of standard deviations for the same level, and
giving both `cl` and `sigma` is refused. Missing from the full claim: the cases of `errors_sigma_violated`. -/
theorem errors_level_partial (chi : Chi2) (hybr : M) (errordef : ℝ) (cl : ℝ) :
    errorsLevel chi (some cl) none = .ok cl ∧
    (∀ rtol method cov, (settle chi hybr errordef (⟨some cl, none, rtol, method, cov⟩ : Request M V)).map (·.sigma) =
      .ok (hesseSigma chi cl)) ∧
    ∀ s, errorsLevel chi (some cl) (some s) = .error .valueError := ⟨rfl, fun _ _ _ => rfl, fun _ => rfl⟩

end Zfit.Res
