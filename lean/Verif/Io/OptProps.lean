import Verif.Io.OptModel
import Mathlib.Tactic.NormNum

/-! Properties of `update_integration_options` (C66). -/

namespace Zfit.Io

open Zfit

/-- The options that should hold afterwards: given options are replaced, `'auto'` by the formula for the *new* tolerance and
maximum. -/
def requested (r : AutoRules) (a : OptionArgs) (o : IntegrationOptions) : IntegrationOptions where
  mcSampler := a.mcSampler.getD o.mcSampler
  maxDraws := a.maxDraws.getD o.maxDraws
  tol := a.tol.getD o.tol
  drawsPerDim := match a.drawsPerDim with
    | none => o.drawsPerDim
    | some (.num n) => .num n
    | some .auto => .num (r.perDim (a.tol.getD o.tol) (a.maxDraws.getD o.maxDraws))
  drawsSimpson := match a.drawsSimpson with
    | none => o.drawsSimpson
    | some (.num n) => .num n
    | some .auto => .num (r.simpson (a.tol.getD o.tol))

/-- Arguments the call should accept. -/
def validArgs (a : OptionArgs) (o : IntegrationOptions) : Prop :=
  (∀ t, a.tol = some t → 0 ≤ t ∧ t ≤ 1) ∧
  (a.tol.getD o.tol = 0 → a.drawsPerDim ≠ some .auto ∧ a.drawsSimpson ≠ some .auto)

/-- C66, what holds: valid arguments without a *number* for `draws_per_dim` are applied completely. Missing from the full claim: the cases
of `options_not_atomic_violated`, `options_number_violated`. -/
theorem options_applied_partial (r : AutoRules) (a : OptionArgs) (o : IntegrationOptions) (hv : validArgs a o)
    (hd : ∀ n, a.drawsPerDim ≠ some (.num n)) : updateOptions r a o = (requested r a o, none) := by
  obtain ⟨d, m, x, t, s⟩ := a
  obtain ⟨h1, h2⟩ := hv
  have ht : ∀ t', t = some t' → ¬ (t' > 1 ∨ t' < 0) := by
    intro t' e hc
    obtain ⟨ha, hb⟩ := h1 t' e
    rcases hc with hc | hc
    · exact absurd hb (not_le_of_gt hc)
    · exact absurd ha (not_le_of_gt hc)
  unfold updateOptions requested
  rcases d with _ | d | n
  · rcases t with _ | t
    · rcases s with _ | s | n
      · cases m <;> cases x <;> simp [updatePerDim, updateSimpson]
      · have h0 : o.tol ≠ 0 := fun h => (h2 h).2 rfl
        cases m <;> cases x <;> simp [updatePerDim, updateSimpson, h0]
      · cases m <;> cases x <;> simp [updatePerDim, updateSimpson]
    · have h := ht t rfl
      rcases s with _ | s | n
      · cases m <;> cases x <;> simp only [if_neg h] <;> simp [updatePerDim, updateSimpson]
      · have h0 : t ≠ 0 := fun h => (h2 h).2 rfl
        cases m <;> cases x <;> simp only [if_neg h] <;> simp [updatePerDim, updateSimpson, h0]
      · cases m <;> cases x <;> simp only [if_neg h] <;> simp [updatePerDim, updateSimpson]
  · rcases t with _ | t
    · have h0 : o.tol ≠ 0 := fun h => (h2 h).1 rfl
      rcases s with _ | s | n
      · cases m <;> cases x <;> simp [updatePerDim, updateSimpson, h0]
      · cases m <;> cases x <;> simp [updatePerDim, updateSimpson, h0]
      · cases m <;> cases x <;> simp [updatePerDim, updateSimpson, h0]
    · have h := ht t rfl
      have h0 : t ≠ 0 := fun h => (h2 h).1 rfl
      rcases s with _ | s | n
      · cases m <;> cases x <;> simp only [if_neg h] <;> simp [updatePerDim, updateSimpson, h0]
      · cases m <;> cases x <;> simp only [if_neg h] <;> simp [updatePerDim, updateSimpson, h0]
      · cases m <;> cases x <;> simp only [if_neg h] <;> simp [updatePerDim, updateSimpson, h0]
  · exact (hd n rfl).elim

/-- C66: everything else raises. -/
theorem options_rejected (r : AutoRules) (a : OptionArgs) (o : IntegrationOptions)
    (h : ¬ validArgs a o ∨ ∃ n, a.drawsPerDim = some (.num n)) : (updateOptions r a o).2 ≠ none := by
  obtain ⟨d, m, x, t, s⟩ := a
  by_cases ht : ∃ t', t = some t' ∧ (t' > 1 ∨ t' < 0)
  · obtain ⟨t', rfl, hc⟩ := ht
    unfold updateOptions
    simp only [if_pos hc]
    simp
  · have hok : ∀ t', t = some t' → ¬ (t' > 1 ∨ t' < 0) := fun t' e hc => ht ⟨t', e, hc⟩
    rcases h with h | ⟨n, hn⟩
    · have hz : t.getD o.tol = 0 ∧ (d = some .auto ∨ s = some .auto) := by
        by_contra hc
        apply h
        constructor
        · intro t' e
          have := hok t' e
          push Not at this
          exact ⟨this.2, this.1⟩
        · intro hz
          refine ⟨fun hd => hc ⟨hz, Or.inl hd⟩, fun hs => hc ⟨hz, Or.inr hs⟩⟩
      obtain ⟨hz, hds⟩ := hz
      unfold updateOptions
      rcases t with _ | t
      · simp only [Option.getD_none] at hz
        rcases d with _ | d | n
        · rcases hds with hds | rfl
          · cases hds
          · cases m <;> cases x <;> simp [updatePerDim, updateSimpson, hz]
        · cases m <;> cases x <;> simp [updatePerDim, hz]
        · cases m <;> cases x <;> simp [updatePerDim]
      · simp only [Option.getD_some] at hz
        have := hok t rfl
        rcases d with _ | d | n
        · rcases hds with hds | rfl
          · cases hds
          · cases m <;> cases x <;> simp only [if_neg this] <;> simp [updatePerDim, updateSimpson, hz]
        · cases m <;> cases x <;> simp only [if_neg this] <;> simp [updatePerDim, hz]
        · cases m <;> cases x <;> simp only [if_neg this] <;> simp [updatePerDim]
    · simp only at hn
      subst hn
      unfold updateOptions
      rcases t with _ | t
      · cases m <;> cases x <;> simp [updatePerDim]
      · have := hok t rfl
        cases m <;> cases x <;> simp only [if_neg this] <;> simp [updatePerDim]

/-- C66, what holds of the other half: a tolerance out of range alone changes nothing. Missing from the full claim: the cases of
`options_not_atomic_violated`, `options_number_violated`. -/
theorem options_unchanged_partial (r : AutoRules) (t : Rat) (s : Option Draws) (o : IntegrationOptions) (ht : t > 1 ∨ t < 0) :
    updateOptions r { tol := some t, drawsSimpson := s } o = (o, some .valueError) := by
  unfold updateOptions
  simp only [if_pos ht]

/-- Options and formulas of an example. -/
def exOptions : IntegrationOptions := ⟨.num 40000, 0, 800000, 1 / 1000, .num 100⟩
def exRules : AutoRules := ⟨fun _ m => min m 300, fun _ => 500⟩

/-- Hypotheses met: an automatic number of draws with new limits. -/
example : updateOptions exRules { drawsPerDim := some .auto, maxDraws := some 200, tol := some (1 / 10) } exOptions
    = (⟨.num 200, 0, 200, 1 / 10, .num 100⟩, none) := by decide +kernel

/-- C66 fails: a tolerance out of range raises, but the maximal number of draws given with it stays. -/
theorem options_not_atomic_violated :
    updateOptions exRules { maxDraws := some 5, tol := some 2 } exOptions
      = ({ exOptions with maxDraws := 5 }, some .valueError) := by decide +kernel

/-- C66 fails: a *number* of draws per dimension always raises (and stays), so the other options given with it are not all
applied. -/
theorem options_number_violated (r : AutoRules) (n : ℕ) (o : IntegrationOptions) :
    updateOptions r { drawsPerDim := some (.num n), drawsSimpson := some (.num 7) } o
      = ({ o with drawsPerDim := .num n }, some .unboundLocalError) := by
  simp [updateOptions, updatePerDim]

end Zfit.Io
