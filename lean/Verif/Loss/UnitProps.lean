import Verif.Loss.Stat
import Mathlib.Analysis.SpecialFunctions.Log.Basic

/-!
# C306: the unit of an observable makes no difference to a fit

`g` takes an event to the same event in the other unit; densities are divided by the factor `a` between the units (C305).
-/

namespace Zfit.Loss

variable {Θ X X' : Type}

/-- Specification: the same model, data and fit range in the other unit. -/
structure InUnit (a : ℝ) (g : X → X') (m : Mod Θ X) (d : Dat X) (r : Option (Range X)) (m' : Mod Θ X') (d' : Dat X') (r' : Option (Range X')) :
    Prop where
  density : ∀ θ x, m'.pdf r' θ (g x) = m.pdf r θ x / a
  events : d'.events = d.events.map fun e => (g e.1, e.2)
  range : ∀ e, inside r' (g e.1, e.2) = inside r e

private theorem unit_nll (m : Mod Θ X) (d : Dat X) (hd : d.Weighted) (r : Option (Range X)) (cs : List (Constr Θ)) (o : Opts) (θ : Θ) :
    (single .unbinnedNLL m d r cs o).HasValue θ
      (-((d.events.filter (inside r)).map (fun e => e.2 * Real.log (m.pdf r θ e.1 + eps))).sum + (cs.map (·.value θ)).sum) := by
  apply hasValue_of
  · intro h; simp [Kind.binned, single] at h
  · simp [Loss.checkChi2, single]
  · simp [Loss.lossFunc, single, constraintSum, nllTerm_value m d r θ hd]

/-- The difference that the small number added to the density makes. -/
theorem log_unit {a p δ : ℝ} (ha : 0 < a) (hδ : 0 < δ) (hp : δ ≤ p) :
    |Real.log (p / a + eps) - (Real.log (p + eps) - Real.log a)| ≤ |a - 1| * eps / δ := by
  have he := eps_pos
  have hp0 : 0 < p := lt_of_lt_of_le hδ hp
  have h1 : 0 < p + eps := by positivity
  have h2 : 0 < p + a * eps := by positivity
  have hl : Real.log (p / a + eps) - (Real.log (p + eps) - Real.log a) = Real.log ((p + a * eps) / (p + eps)) := by
    rw [Real.log_div h2.ne' h1.ne', show p / a + eps = (p + a * eps) / a by field_simp, Real.log_div h2.ne' ha.ne']
    ring
  have hy : 0 < (p + a * eps) / (p + eps) := by positivity
  rw [hl, abs_le]
  have hb : ∀ q, p ≤ q → |(a - 1) * eps / q| ≤ |a - 1| * eps / δ := by
    intro q hq
    rw [abs_div, abs_mul, abs_of_pos he, abs_of_pos (lt_of_lt_of_le hp0 hq)]
    exact div_le_div_of_nonneg_left (by positivity) hδ (hp.trans hq)
  constructor
  · have h3 := Real.one_sub_inv_le_log_of_pos hy
    have h4 := (abs_le.1 (hb (p + a * eps) (by nlinarith))).1
    have h5 : 1 - ((p + a * eps) / (p + eps))⁻¹ = (a - 1) * eps / (p + a * eps) := by
      rw [inv_div, eq_div_iff h2.ne', sub_mul, div_mul_cancel₀ _ h2.ne']
      ring
    rw [h5] at h3
    linarith
  · have h3 := Real.log_le_sub_one_of_pos hy
    have h4 := (abs_le.1 (hb (p + eps) (by linarith))).2
    have h5 : (p + a * eps) / (p + eps) - 1 = (a - 1) * eps / (p + eps) := by
      rw [eq_div_iff h1.ne', sub_mul, div_mul_cancel₀ _ h1.ne']
      ring
    rw [h5] at h3
    linarith

private theorem sum_unit (a δ : ℝ) (ha : 0 < a) (hδ : 0 < δ) (p : X → ℝ) : ∀ es : List (X × ℝ), (∀ e ∈ es, δ ≤ p e.1) →
    |(es.map fun e => e.2 * Real.log (p e.1 / a + eps)).sum
      - ((es.map fun e => e.2 * Real.log (p e.1 + eps)).sum - (es.map (·.2)).sum * Real.log a)|
      ≤ |a - 1| * eps / δ * (es.map fun e => |e.2|).sum
  | [], _ => by simp
  | e :: es, h => by
    have ih := sum_unit a δ ha hδ p es (fun e he => h e (by simp [he]))
    have h1 := log_unit ha hδ (h e (by simp))
    simp only [List.map_cons, List.sum_cons]
    have h2 : |e.2 * (Real.log (p e.1 / a + eps) - (Real.log (p e.1 + eps) - Real.log a))| ≤ |a - 1| * eps / δ * |e.2| := by
      rw [abs_mul, mul_comm]
      exact mul_le_mul_of_nonneg_right h1 (abs_nonneg _)
    rw [mul_add]
    refine le_trans (le_of_eq ?_) ((abs_add_le _ _).trans (add_le_add h2 ih))
    congr 1
    ring

private theorem events_unit {a : ℝ} {g : X → X'} {m : Mod Θ X} {d : Dat X} {r : Option (Range X)} {m' : Mod Θ X'} {d' : Dat X'}
    {r' : Option (Range X')} (h : InUnit a g m d r m' d' r') (θ : Θ) :
    (d'.events.filter (inside r')).map (fun e => e.2 * Real.log (m'.pdf r' θ e.1 + eps))
      = (d.events.filter (inside r)).map (fun e => e.2 * Real.log (m.pdf r θ e.1 / a + eps)) := by
  rw [h.events, List.filter_map, List.map_map]
  have : (inside r' ∘ fun e : X × ℝ => (g e.1, e.2)) = inside r := funext h.range
  rw [this]
  apply List.map_congr_left
  intro e _
  simp only [Function.comp_apply, h.density]

/-- C306, the proved part: the difference of the likelihood between two points is the same in both units, up to what the number
`eps` (1e-307) that is added to every density makes, if the densities of the events are not smaller than some `δ`.  With constraints,
weights, fit range and any history of evaluations.  (Missing: densities that vanish, see `unit_zero_violated`.) -/
theorem unit_difference_partial {a : ℝ} (ha : 0 < a) {g : X → X'} {m : Mod Θ X} {d : Dat X} {r : Option (Range X)} {m' : Mod Θ X'}
    {d' : Dat X'} {r' : Option (Range X')} (h : InUnit a g m d r m' d' r') (hd : d.Weighted) (hd' : d'.Weighted)
    (cs : List (Constr Θ)) (o o' : Opts) (θ₁ θ₂ : Θ) {δ : ℝ} (hδ : 0 < δ)
    (hp : ∀ e ∈ d.events, inside r e = true → δ ≤ m.pdf r θ₁ e.1 ∧ δ ≤ m.pdf r θ₂ e.1) :
    ∃ v₁ v₂ v₁' v₂', (single .unbinnedNLL m d r cs o).HasValue θ₁ v₁ ∧ (single .unbinnedNLL m d r cs o).HasValue θ₂ v₂ ∧
      (single .unbinnedNLL m' d' r' cs o').HasValue θ₁ v₁' ∧ (single .unbinnedNLL m' d' r' cs o').HasValue θ₂ v₂' ∧
      |(v₁' - v₂') - (v₁ - v₂)| ≤ 2 * (|a - 1| * eps / δ * ((d.events.filter (inside r)).map fun e => |e.2|).sum) := by
  refine ⟨_, _, _, _, unit_nll m d hd r cs o θ₁, unit_nll m d hd r cs o θ₂, unit_nll m' d' hd' r' cs o' θ₁,
    unit_nll m' d' hd' r' cs o' θ₂, ?_⟩
  rw [events_unit h, events_unit h]
  have hs := fun (θ : Θ) (hθ : ∀ e ∈ d.events, inside r e = true → δ ≤ m.pdf r θ e.1) =>
    sum_unit a δ ha hδ (m.pdf r θ) (d.events.filter (inside r))
      (fun e he => hθ e (List.mem_filter.1 he).1 (List.mem_filter.1 he).2)
  have s1 := hs θ₁ (fun e he hi => (hp e he hi).1)
  have s2 := hs θ₂ (fun e he hi => (hp e he hi).2)
  rw [two_mul]
  rw [abs_sub_comm] at s1
  refine le_trans (le_of_eq ?_) ((abs_add_le _ _).trans (add_le_add s1 s2))
  congr 1
  ring

/-- C306 is violated for an event with the density zero: `1e-307` is added in every unit, so that the difference of the
likelihood between a point where the density is zero and one where it is not depends on the unit. -/
theorem unit_zero_violated : ∃ (m m' : Mod Bool ℝ) (d d' : Dat ℝ),
    InUnit 1000 (fun x => 1000 * x) m d none m' d' none ∧
    ∃ v₁ v₂ v₁' v₂', (single .unbinnedNLL m d none [] {}).HasValue true v₁ ∧ (single .unbinnedNLL m d none [] {}).HasValue false v₂ ∧
      (single .unbinnedNLL m' d' none [] {}).HasValue true v₁' ∧ (single .unbinnedNLL m' d' none [] {}).HasValue false v₂' ∧
      v₁' - v₂' > v₁ - v₂ + 1 / 2 := by
  refine ⟨⟨fun _ θ _ => if θ then 1 else 0, none, fun _ => [], none⟩, ⟨fun _ θ _ => (if θ then 1 else 0) / 1000, none, fun _ => [], none⟩,
    ⟨[1], none, 1, 1, [], none⟩, ⟨[1000], none, 1, 1, [], none⟩, ⟨fun θ x => rfl, by simp [Dat.events], fun e => rfl⟩, _, _, _, _,
    unit_nll _ _ (by rintro w ⟨⟩) _ _ _ _, unit_nll _ _ (by rintro w ⟨⟩) _ _ _ _,
    unit_nll _ _ (by rintro w ⟨⟩) _ _ _ _, unit_nll _ _ (by rintro w ⟨⟩) _ _ _ _, ?_⟩
  have he := eps_pos
  have he' : eps ≤ 1 / 1000 := by
    unfold eps
    rw [show (1 / 1000 : ℝ) = 10 ^ (-3 : ℤ) by norm_num]
    exact zpow_le_zpow_right₀ (by norm_num) (by norm_num)
  have hf : ∀ x : ℝ × ℝ, [x].filter (inside none) = [x] := fun x => rfl
  have h1 := Real.log_le_sub_one_of_pos (show 0 < (1000 : ℝ)⁻¹ + eps by positivity)
  have h2 : 0 < Real.log (1 + eps) := Real.log_pos (by linarith)
  simp [Dat.events, hf]
  norm_num at h1
  linarith

/-- non-vacuity of `unit_difference_partial`: an event of weight 2, in a fit range -/
example : ∃ (m m' : Mod ℝ ℝ) (d d' : Dat ℝ) (r r' : Range ℝ), InUnit 1000 (fun x => 1000 * x) m d (some r) m' d' (some r') ∧
    d.Weighted ∧ d'.Weighted ∧ (∀ e ∈ d.events, inside (some r) e = true → (1 / 2 : ℝ) ≤ m.pdf (some r) 1 e.1 ∧ 1 / 2 ≤ m.pdf (some r) 2 e.1) ∧
    d.events.filter (inside (some r)) = [(1, 2)] := by
  classical
  refine ⟨⟨fun _ θ x => θ * x, none, fun _ => [], none⟩, ⟨fun _ θ x => θ * (x / 1000) / 1000, none, fun _ => [], none⟩,
    ⟨[1, 20], some [2, 5], 1, 1, [], none⟩, ⟨[1000, 20000], some [2, 5], 1, 1, [], none⟩, fun x => decide (x < 10), fun x => decide (x < 10000),
    ⟨?_, ?_, ?_⟩, ?_, ?_, ?_, ?_⟩
  · intro θ x; simp
  · simp [Dat.events]; norm_num
  · intro e
    simp only [inside, decide_eq_decide]
    constructor <;> intro h <;> linarith
  · rintro w ⟨⟩; rfl
  · rintro w ⟨⟩; rfl
  · intro e he hi
    simp [Dat.events] at he
    rcases he with rfl | rfl
    · norm_num
    · norm_num
  · simp [Dat.events, inside]
    norm_num

end Zfit.Loss
