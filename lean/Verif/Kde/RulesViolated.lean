import Verif.Kde.Rules

/-! Where the bandwidth rules differ from their documentation (C85), and the adaptive bandwidths (C86). -/

namespace Zfit.Kde

/-! Quantiles of rational numbers are those of the same real numbers; this is how the examples are computed. -/

theorem cum_cast (acc : ℚ) (ws : List ℚ) : cumMinusHalf (acc : ℝ) (ws.map fun w : ℚ => (w : ℝ)) = (cumMinusHalf acc ws).map fun w : ℚ => (w : ℝ) := by
  induction ws generalizing acc with
  | nil => rfl
  | cons w ws ih =>
    simp only [List.map_cons, cumMinusHalf]
    rw [← Rat.cast_add, ih]
    push_cast
    rfl

theorem sum_cast (ws : List ℚ) : (ws.map fun w : ℚ => (w : ℝ)).sum = ((ws.sum : ℚ) : ℝ) := by
  induction ws with
  | nil => simp
  | cons w ws ih => rw [List.map_cons, List.sum_cons, List.sum_cons, ih, Rat.cast_add]

theorem iqr_cast (data : List ℚ) (ws : Option (List ℚ)) :
    iqr (data.map fun x : ℚ => (x : ℝ)) (ws.map fun ws : List ℚ => ws.map fun w : ℚ => (w : ℝ)) = (iqr data ws).map fun x : ℚ => (x : ℝ) := by
  have hf : ∀ a b : ℚ, a ≤ b ↔ (a : ℝ) ≤ (b : ℝ) := fun a b => Rat.cast_le.symm
  cases ws with
  | none =>
    simp only [Option.map_none, iqr, percentile_map _ data (fun x : ℚ => (x : ℝ)) hf]
    rcases percentile 75 data with _ | u <;> rcases percentile 25 data with _ | v <;> simp
  | some ws =>
    have h : ∀ (q : ℚ) (q' : ℝ), q' = q → weightedQuantile q' ((data.map fun x : ℚ => (x : ℝ)).zip (ws.map fun w : ℚ => (w : ℝ))) =
        (weightedQuantile q (data.zip ws)).map fun x : ℚ => (x : ℝ) := by
      intro q q' hq
      have hz : (data.map fun x : ℚ => (x : ℝ)).zip (ws.map fun w : ℚ => (w : ℝ)) = (data.zip ws).map fun e : ℚ × ℚ => ((e.1 : ℝ), (e.2 : ℝ)) := by
        rw [List.zip_map]; rfl
      rw [hz]
      refine weightedQuantile_map q q' (data.zip ws) (fun x : ℚ => (x : ℝ)) (fun x : ℚ => (x : ℝ)) (fun x : ℚ => (x : ℝ)) hf (fun x y => by push_cast; rfl) ?_
        (fun w => by rw [hq]; exact ⟨Rat.cast_lt.symm, Rat.cast_le.symm⟩)
      intro ws _
      unfold positions
      have := cum_cast 0 ws
      rw [Rat.cast_zero] at this
      rw [this, sum_cast, List.map_map, List.map_map]
      apply List.map_congr_left
      intro a _
      simp
    simp only [Option.map_some, iqr, h (3 / 4) (3 / 4) (by norm_num), h (1 / 4) (1 / 4) (by norm_num)]
    rcases weightedQuantile (3 / 4) (data.zip ws) with _ | u <;> rcases weightedQuantile (1 / 4) (data.zip ws) with _ | v <;> simp

/-- The formula of the documentation (zfit/models/kde.py 57-58, 66: the weights "will change the count of the events"). -/
noncomputable def documentedRule (factor : ℝ) (data : List ℝ) (weights : Option (List ℝ)) : Option ℝ :=
  (iqr data weights).map fun r => factor * min (stdDev data weights) (r / (134 / 100)) * eventCount data weights ^ (-1 / 5 : ℝ)

theorem four_std : stdDev [0, 1, 2, 3] none = Real.sqrt (5 / 4) ∧ stdDev [0, 1, 2, 3] (some [1, 1, 1, 1]) = Real.sqrt (5 / 4) ∧
    stdDev [0, 0, 1, 1, 2, 2, 3, 3] none = Real.sqrt (5 / 4) ∧ stdDev [0, 1, 2, 3] (some [2, 2, 2, 2]) = Real.sqrt (5 / 4) := by
  refine ⟨?_, ?_, ?_, ?_⟩ <;> simp [stdDev] <;> norm_num

theorem four_iqr : iqr ([0, 1, 2, 3] : List ℝ) none = some 1 ∧ iqr ([0, 1, 2, 3] : List ℝ) (some [1, 1, 1, 1]) = some 2 ∧
    iqr ([0, 0, 1, 1, 2, 2, 3, 3] : List ℝ) none = some 1 ∧ iqr ([0, 1, 2, 3] : List ℝ) (some [2, 2, 2, 2]) = some 2 := by
  have h1 := iqr_cast [0, 1, 2, 3] none
  have h2 := iqr_cast [0, 1, 2, 3] (some [1, 1, 1, 1])
  have h3 := iqr_cast [0, 0, 1, 1, 2, 2, 3, 3] none
  have h4 := iqr_cast [0, 1, 2, 3] (some [2, 2, 2, 2])
  have e1 : iqr ([0, 1, 2, 3] : List ℚ) none = some 1 := by decide +kernel
  have e2 : iqr ([0, 1, 2, 3] : List ℚ) (some [1, 1, 1, 1]) = some 2 := by decide +kernel
  have e3 : iqr ([0, 0, 1, 1, 2, 2, 3, 3] : List ℚ) none = some 1 := by decide +kernel
  have e4 : iqr ([0, 1, 2, 3] : List ℚ) (some [2, 2, 2, 2]) = some 2 := by decide +kernel
  rw [e1] at h1
  rw [e2] at h2
  rw [e3] at h3
  rw [e4] at h4
  simp at h1 h2 h3 h4
  exact ⟨h1, h2, h3, h4⟩

theorem root_bounds : 1 < Real.sqrt (5 / 4) ∧ Real.sqrt (5 / 4) < 2 := by
  constructor
  · rw [Real.lt_sqrt (by norm_num)]; norm_num
  · rw [Real.sqrt_lt' (by norm_num)]; norm_num

/-- C85 refuted: the range between the quartiles is not divided by 1.34. -/
theorem rule_documented_violated : silverman [0, 1, 2, 3] none ≠ documentedRule (9 / 10) [0, 1, 2, 3] none := by
  obtain ⟨h1, h2⟩ := root_bounds
  unfold silverman ruleOfThumb minStdOrIqr documentedRule
  rw [four_iqr.1, four_std.1]
  simp only [Option.map_some, eventCount, ne_eq, Option.some.injEq]
  rw [min_eq_right h1.le, min_eq_right (by linarith [show (1 : ℝ) / (134 / 100) < 1 by norm_num])]
  obtain ⟨n, hn⟩ : ∃ n : ℝ, n = (([0, 1, 2, 3] : List ℝ).length : ℝ) ^ (-1 / 5 : ℝ) := ⟨_, rfl⟩
  have hpos : 0 < n := by rw [hn]; exact Real.rpow_pos_of_pos (by simp) _
  rw [← hn]
  intro h
  have : n * (9 / 10 - 9 / 10 * (1 / (134 / 100))) = 0 := by linarith
  rcases mul_eq_zero.1 this with h | h
  · linarith
  · norm_num at h

/-- C85 refuted: weights of one give another bandwidth than no weights. -/
theorem rule_unit_weights_violated : silverman [0, 1, 2, 3] (some [1, 1, 1, 1]) ≠ silverman [0, 1, 2, 3] none := by
  obtain ⟨h1, h2⟩ := root_bounds
  unfold silverman ruleOfThumb minStdOrIqr
  rw [four_iqr.1, four_std.1, four_iqr.2.1, four_std.2.1]
  simp only [Option.map_some, ne_eq, Option.some.injEq]
  rw [min_eq_right h1.le, min_eq_left h2.le]
  obtain ⟨n, hn⟩ : ∃ n : ℝ, n = (([0, 1, 2, 3] : List ℝ).length : ℝ) ^ (-1 / 5 : ℝ) := ⟨_, rfl⟩
  have hpos : 0 < n := by rw [hn]; exact Real.rpow_pos_of_pos (by simp) _
  rw [← hn]
  intro h
  nlinarith [mul_pos hpos (sub_pos.2 h1)]

/-- C85 refuted: events of weight two give another bandwidth than every event twice; by `rule_weights_scale` the bandwidth does
not know how large the weights are. -/
theorem rule_count_violated : silverman [0, 1, 2, 3] (some [2, 2, 2, 2]) ≠ silverman [0, 0, 1, 1, 2, 2, 3, 3] none := by
  obtain ⟨h1, h2⟩ := root_bounds
  unfold silverman ruleOfThumb minStdOrIqr
  rw [four_iqr.2.2.1, four_std.2.2.1, four_iqr.2.2.2, four_std.2.2.2]
  simp only [Option.map_some, ne_eq, Option.some.injEq]
  rw [min_eq_right h1.le, min_eq_left h2.le]
  obtain ⟨n, hn⟩ : ∃ n : ℝ, n = (([0, 1, 2, 3] : List ℝ).length : ℝ) ^ (-1 / 5 : ℝ) := ⟨_, rfl⟩
  obtain ⟨m, hm⟩ : ∃ m : ℝ, m = (([0, 0, 1, 1, 2, 2, 3, 3] : List ℝ).length : ℝ) ^ (-1 / 5 : ℝ) := ⟨_, rfl⟩
  have hmn : m < n := by
    rw [hn, hm]
    exact Real.rpow_lt_rpow_of_neg (by simp) (by simp; norm_num) (by norm_num)
  have hpos : 0 < m := by rw [hm]; exact Real.rpow_pos_of_pos (by simp) _
  rw [← hn, ← hm]
  intro h
  nlinarith [mul_pos (hpos.trans hmn) (sub_pos.2 h1)]

/-- C85 refuted: if the largest event has more than half of the weight, there is no bandwidth (the index of its quartile is
behind the end). -/
theorem rule_raises_violated : silverman [0, 1] (some [1, 3]) = none := by
  have h := iqr_cast [0, 1] (some [1, 3])
  have e : iqr ([0, 1] : List ℚ) (some [1, 3]) = none := by decide +kernel
  rw [e] at h
  simp at h
  simp [silverman, ruleOfThumb, minStdOrIqr, h]

/-- C85 refuted: the bandwidth of a sample that is not constant may be zero. -/
theorem rule_zero_violated : silverman [0, 1, 1, 1, 2] none = some 0 := by
  have h := iqr_cast [0, 1, 1, 1, 2] none
  have e : iqr ([0, 1, 1, 1, 2] : List ℚ) none = some 0 := by decide +kernel
  rw [e] at h
  simp at h
  simp only [silverman, ruleOfThumb, minStdOrIqr, h, Option.map_some]
  rw [min_eq_right (by unfold stdDev; exact Real.sqrt_nonneg _), zero_mul, zero_mul]

/-- C85 refuted: with equal events of different weights the order matters. -/
theorem rule_weighted_order_violated : silverman [0, 0, 1] (some [8, 1, 1]) = some 0 ∧ silverman [0, 0, 1] (some [1, 8, 1]) ≠ some 0 := by
  have h := iqr_cast [0, 0, 1] (some [8, 1, 1])
  have e : iqr ([0, 0, 1] : List ℚ) (some [8, 1, 1]) = some 0 := by decide +kernel
  rw [e] at h
  simp at h
  have h' := iqr_cast [0, 0, 1] (some [1, 8, 1])
  have e' : iqr ([0, 0, 1] : List ℚ) (some [1, 8, 1]) = some 1 := by decide +kernel
  rw [e'] at h'
  simp at h'
  constructor
  · simp only [silverman, ruleOfThumb, minStdOrIqr, h, Option.map_some]
    rw [min_eq_right (by unfold stdDev; exact Real.sqrt_nonneg _), zero_mul, zero_mul]
  · simp only [silverman, ruleOfThumb, minStdOrIqr, h', Option.map_some, ne_eq, Option.some.injEq]
    have hs : 0 < stdDev [0, 0, 1] (some [1, 8, 1]) := by
      unfold stdDev
      apply Real.sqrt_pos.2
      simp
      norm_num
    have hn : (0 : ℝ) < (([0, 0, 1] : List ℝ).length : ℝ) ^ (-1 / 5 : ℝ) := Real.rpow_pos_of_pos (by simp) _
    have := lt_min hs one_pos
    positivity

/-- The hypotheses of `rule_equivariant` and `rule_weighted_order_partial` are met, with a bandwidth that exists. -/
example : Usable [0, 1, 2, 3] (some [2, 2, 2, 2]) ∧ Usable [0, 1, 2, 3] none ∧ (silverman [0, 1, 2, 3] (some [2, 2, 2, 2])).isSome ∧
    ([(0, 2), (1, 2), (2, 2), (3, 2)].map (fun e : ℝ × ℝ => e.1)).Nodup := by
  refine ⟨⟨rfl, by norm_num⟩, by simp [Usable], ?_, by simp⟩
  simp [silverman, ruleOfThumb, minStdOrIqr, four_iqr.2.2.2]

/-! ## C86: adaptive bandwidths -/

/-- C86. Every adaptive bandwidth is one constant divided by the root of the density at the event. -/
theorem adaptive_inverse_root (data : List ℝ) (func : ℝ → ℝ) (hp : ∀ x ∈ data, 0 < func x) (weights : Option (List ℝ)) (h : List ℝ)
    (hh : adaptiveGeom data func weights = some h ∨ adaptiveZfit data func weights = some h ∨ adaptiveStd data func weights = some h) :
    ∃ c, h = data.map fun x => c / Real.sqrt (func x) := by
  rcases hh with hh | hh | hh
  · simp only [adaptiveGeom, Option.map_eq_some_iff] at hh
    obtain ⟨m, _, rfl⟩ := hh
    refine ⟨Real.sqrt (geometricMean (data.map func) weights) * eventCount data weights ^ (-1 / 5 : ℝ) * m, ?_⟩
    rw [List.map_map]
    apply List.map_congr_left
    intro x hx
    simp only [Function.comp]
    rw [Real.sqrt_div (hp x hx).le]
    have : 0 < Real.sqrt (func x) := Real.sqrt_pos.2 (hp x hx)
    field_simp
  · simp only [adaptiveZfit, Option.map_eq_some_iff] at hh
    obtain ⟨s, _, rfl⟩ := hh
    refine ⟨s * (((data.map func).map Real.sqrt).sum / (data.map func).length), ?_⟩
    rw [List.map_map]
    apply List.map_congr_left
    intro x hx
    simp only [Function.comp]
    rw [div_div_eq_mul_div]
  · simp only [adaptiveStd, Option.map_eq_some_iff] at hh
    obtain ⟨m, hm, rfl⟩ := hh
    refine ⟨Real.sqrt m * (eventCount data weights ^ (-1 / 5 : ℝ) * (1059 / 1000)), ?_⟩
    rw [List.map_map]
    apply List.map_congr_left
    intro x hx
    simp only [Function.comp]
    rw [Real.sqrt_div' _ (hp x hx).le]
    ring

theorem min_affine (a b : ℝ) (ha : 0 < a) (data : List ℝ) (weights : Option (List ℝ)) (hw : Usable data weights) :
    minStdOrIqr (data.map fun x => a * x + b) weights = (minStdOrIqr data weights).map (a * ·) := by
  simp only [minStdOrIqr, iqr_affine a b ha, std_affine a b ha data weights hw]
  rcases iqr data weights with _ | r
  · rfl
  · simp [mul_min_of_nonneg _ _ ha.le]

theorem log_sum (a : ℝ) (ha : 0 < a) (ws p : List ℝ) (hp : ∀ x ∈ p, 0 < x) (hl : ws.length = p.length) :
    (List.zipWith (fun w p => w * Real.log p) ws (p.map (· / a))).sum =
      (List.zipWith (fun w p => w * Real.log p) ws p).sum - ws.sum * Real.log a := by
  induction ws generalizing p with
  | nil => simp
  | cons w ws ih =>
    cases p with
    | nil => simp at hl
    | cons x p =>
      simp only [List.map_cons, List.zipWith_cons_cons, List.sum_cons]
      rw [ih p (fun y hy => hp y (List.mem_cons_of_mem _ hy)) (by simpa using hl),
        Real.log_div (hp x (List.mem_cons_self ..)).ne' ha.ne']
      ring

theorem geometricMean_scale (a : ℝ) (ha : 0 < a) (p : List ℝ) (hp : ∀ x ∈ p, 0 < x) (weights : Option (List ℝ)) (hw : Usable p weights) :
    geometricMean (p.map (· / a)) weights = geometricMean p weights / a := by
  have key : ∀ ws : List ℝ, ws.length = p.length → 0 < ws.sum →
      Real.exp ((List.zipWith (fun w p => w * Real.log p) ws (p.map (· / a))).sum / ws.sum) =
      Real.exp ((List.zipWith (fun w p => w * Real.log p) ws p).sum / ws.sum) / a := by
    intro ws h1 h2
    rw [log_sum a ha ws p hp h1, sub_div, mul_div_cancel_left₀ _ h2.ne', Real.exp_sub, Real.exp_log ha]
  unfold geometricMean
  cases weights with
  | some ws => exact key ws hw.1 hw.2
  | none =>
    have hl : (p.map fun _ => (1 : ℝ)).sum = p.length := by simp
    have := key (p.map fun _ => 1) (by simp) (by
      rw [hl]
      exact_mod_cast List.length_pos_iff.2 hw)
    simp only [Option.getD_none, List.map_map] at this ⊢
    exact this

/-- C86. Stretching and shifting the sample and its density stretches all adaptive bandwidths in the same way. -/
theorem adaptive_equivariant (a b : ℝ) (ha : 0 < a) (data : List ℝ) (func func' : ℝ → ℝ) (hp : ∀ x ∈ data, 0 < func x)
    (hfunc : ∀ x ∈ data, func' (a * x + b) = func x / a) (weights : Option (List ℝ)) (hw : Usable data weights) :
    let stretch := fun h : Option (List ℝ) => h.map fun h => h.map (a * ·)
    adaptiveGeom (data.map fun x => a * x + b) func' weights = stretch (adaptiveGeom data func weights) ∧
    adaptiveZfit (data.map fun x => a * x + b) func' weights = stretch (adaptiveZfit data func weights) ∧
    adaptiveStd (data.map fun x => a * x + b) func' weights = stretch (adaptiveStd data func weights) := by
  intro stretch
  have hprobs : (data.map fun x => a * x + b).map func' = (data.map func).map (· / a) := by
    rw [List.map_map, List.map_map]
    exact List.map_congr_left fun x hx => hfunc x hx
  have hcount : eventCount (data.map fun x => a * x + b) weights = eventCount data weights := by
    cases weights <;> simp [eventCount]
  have hpp : ∀ p ∈ data.map func, 0 < p := by
    intro p h
    obtain ⟨x, hx, rfl⟩ := List.mem_map.1 h
    exact hp x hx
  have hw' : Usable (data.map func) weights := by
    cases weights with
    | none => simpa [Usable] using hw
    | some ws => exact ⟨by simpa using hw.1, hw.2⟩
  refine ⟨?_, ?_, ?_⟩
  · simp only [adaptiveGeom, hprobs, hcount, min_affine a b ha data weights hw, geometricMean_scale a ha _ hpp weights hw']
    simp only [stretch, Option.map_map]
    congr 1
    funext m
    simp only [Function.comp, List.map_map]
    apply List.map_congr_left
    intro x hx
    simp only [Function.comp]
    rw [div_div_div_cancel_right₀ ha.ne']
    ring
  · simp only [adaptiveZfit, hprobs, scott, rule_equivariant _ a b ha data weights hw]
    simp only [stretch, Option.map_map]
    congr 1
    funext m
    simp only [Function.comp, List.map_map, List.length_map]
    apply List.map_congr_left
    intro x hx
    simp only [Function.comp]
    have hsum : (data.map (Real.sqrt ∘ (fun x => x / a) ∘ func)).sum = (data.map (Real.sqrt ∘ func)).sum / Real.sqrt a := by
      have : (data.map (Real.sqrt ∘ (fun x => x / a) ∘ func)) = data.map fun x => (Real.sqrt ∘ func) x * (1 / Real.sqrt a) := by
        apply List.map_congr_left
        intro x hx
        simp only [Function.comp]
        rw [Real.sqrt_div' _ ha.le]
        ring
      rw [this, List.sum_map_mul_right]
      ring
    rw [hsum]
    rw [Real.sqrt_div' _ ha.le, div_right_comm _ (Real.sqrt a) (data.length : ℝ), div_div_div_cancel_right₀ (Real.sqrt_pos.2 ha).ne']
    ring
  · simp only [adaptiveStd, hprobs, hcount, min_affine a b ha data weights hw]
    simp only [stretch, Option.map_map]
    congr 1
    funext m
    simp only [Function.comp, List.map_map]
    apply List.map_congr_left
    intro x hx
    simp only [Function.comp]
    have : a * m / (func x / a) = a ^ 2 * (m / func x) := by
      have := (hp x hx).ne'
      field_simp
    rw [this, Real.sqrt_mul (sq_nonneg a), Real.sqrt_sq ha.le]
    ring

/-- The hypotheses are met: a sample of four and a density that is not constant. -/
example : (∀ x ∈ ([0, 1, 2, 3] : List ℝ), 0 < (fun x : ℝ => 1 / (x + 1)) x) ∧ Usable [0, 1, 2, 3] none ∧
    (adaptiveGeom [0, 1, 2, 3] (fun x => 1 / (x + 1)) none).isSome := by
  refine ⟨?_, by simp [Usable], ?_⟩
  · intro x hx
    simp only [List.mem_cons, List.not_mem_nil, or_false] at hx
    rcases hx with rfl | rfl | rfl | rfl <;> norm_num
  · simp [adaptiveGeom, minStdOrIqr, four_iqr.1]

end Zfit.Kde
