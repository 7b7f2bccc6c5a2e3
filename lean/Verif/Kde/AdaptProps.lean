import Verif.Kde.Density
import Verif.Kde.RulesViolated

/-!
# Property C231: the first estimate behind the adaptive bandwidths, continued (see /verif/properties.jsonl and `Kde/IsjProps.lean`)

The adaptive bandwidths of `GaussianKDE1DimV1` and `KDE1DimExact` use a first KDE with Silverman's bandwidth.
-/

namespace Zfit.Kde

open Zfit

/-- The density of the KDE with the normal kernel and Silverman's bandwidth, divided by its integral `total` over the
normalisation range (kde.py 380-390; `pdf`). -/
noncomputable def firstEstimate (total : ℝ) (data : List ℝ) (weights : Option (List ℝ)) : Option (ℝ → ℝ) :=
  (silverman data weights).map fun h x => (exactKde data weights (.scalar h) x).getD 0 / total

/-- zfit/models/kde.py 380-390 `adaptive` of `adaptive_factory(func, grid=False)`: `weights` is an argument of its own, so that it
is not among the `kwargs` the first KDE is created with, and is only given to the rule. -/
noncomputable def adaptiveEvents (rule : List ℝ → (ℝ → ℝ) → Option (List ℝ) → Option (List ℝ)) (total : ℝ) (data : List ℝ)
    (weights : Option (List ℝ)) : Option (List ℝ) :=
  (firstEstimate total data none).bind fun f => rule data f weights

/-- One of the three adaptive rules (`adaptive_geom`, `adaptive_std`, `adaptive_zfit`). -/
def IsAdaptive (rule : List ℝ → (ℝ → ℝ) → Option (List ℝ) → Option (List ℝ)) : Prop :=
  rule = adaptiveGeom ∨ rule = adaptiveZfit ∨ rule = adaptiveStd

/-- Specification: the documented law (kde.py 178-189), `h_i` proportional to the inverse root of a KDE of the weighted
sample with a rule of thumb: one constant divided by the root of the weighted mean of normal kernels of the width `s`. -/
def InverseRootOf (data weights : List ℝ) (s : ℝ) (h : List ℝ) : Prop :=
  ∃ c, h = data.map fun x => c / Real.sqrt (((List.zipWith (fun d w => w * normalPdf d s x) data weights).sum) / weights.sum)

theorem mean_pos (data : List ℝ) (hd : data ≠ []) (s x : ℝ) (hs : 0 < s) :
    0 < (data.map fun d => normalPdf d s x).sum / data.length := by
  have h1 : (0 : ℝ) < data.length := by
    have := List.length_pos_iff.2 hd
    exact_mod_cast this
  refine div_pos (List.sum_pos _ ?_ (by simpa using hd)) h1
  intro y hy
  obtain ⟨d, _, rfl⟩ := List.mem_map.1 hy
  exact normalPdf_pos d s x hs

theorem zipWith_ones (data : List ℝ) (s x : ℝ) :
    (List.zipWith (fun d w => w * normalPdf d s x) data (data.map fun _ => (1 : ℝ))).sum = (data.map fun d => normalPdf d s x).sum := by
  induction data with
  | nil => rfl
  | cons a l ih => rw [List.map_cons, List.zipWith_cons_cons, List.sum_cons, ih, List.map_cons, List.sum_cons, one_mul]

/-- C231, what is used for all weights: the law with a first estimate in which every event counts one. Missing from the full
claim: the weights in the first estimate; for samples without weights this is the full claim, `adaptive_unweighted`. -/
theorem adaptive_first_estimate_partial (rule : List ℝ → (ℝ → ℝ) → Option (List ℝ) → Option (List ℝ)) (hr : IsAdaptive rule) (total : ℝ)
    (ht : 0 < total) (data : List ℝ) (hd : data ≠ []) (weights : Option (List ℝ)) (s : ℝ) (hs : silverman data none = some s) (hpos : 0 < s)
    (h : List ℝ) (hh : adaptiveEvents rule total data weights = some h) : InverseRootOf data (data.map fun _ => 1) s h := by
  have hf : firstEstimate total data none = some fun x => (data.map fun d => normalPdf d s x).sum / data.length / total := by
    simp only [firstEstimate, hs, Option.map_some, (kde_unweighted data hd s _).1, Option.getD_some]
  simp only [adaptiveEvents, hf, Option.bind_some] at hh
  have hp : ∀ x ∈ data, 0 < (data.map fun d => normalPdf d s x).sum / data.length / total := fun x _ =>
    div_pos (mean_pos data hd s x hpos) ht
  obtain ⟨c, rfl⟩ := adaptive_inverse_root data _ hp weights h (by
    rcases hr with rfl | rfl | rfl
    · exact .inl hh
    · exact .inr (.inl hh)
    · exact .inr (.inr hh))
  refine ⟨c * Real.sqrt total, List.map_congr_left fun x _ => ?_⟩
  have hlen : (data.map fun _ => (1 : ℝ)).sum = data.length := by simp
  rw [zipWith_ones, hlen, Real.sqrt_div (mean_pos data hd s x hpos).le, div_div_eq_mul_div]

/-- C231 for samples without weights. -/
theorem adaptive_unweighted (rule : List ℝ → (ℝ → ℝ) → Option (List ℝ) → Option (List ℝ)) (hr : IsAdaptive rule) (total : ℝ)
    (ht : 0 < total) (data : List ℝ) (hd : data ≠ []) (s : ℝ) (hs : silverman data none = some s) (hpos : 0 < s)
    (h : List ℝ) (hh : adaptiveEvents rule total data none = some h) : InverseRootOf data (data.map fun _ => 1) s h :=
  adaptive_first_estimate_partial rule hr total ht data hd none s hs hpos h hh

/-- C231: the ratios of the bandwidths do not depend on the weights at all. -/
theorem adaptive_ratio (rule : List ℝ → (ℝ → ℝ) → Option (List ℝ) → Option (List ℝ)) (hr : IsAdaptive rule) (total : ℝ)
    (ht : 0 < total) (data : List ℝ) (hd : data ≠ []) (w w' : Option (List ℝ)) (s : ℝ) (hs : silverman data none = some s) (hpos : 0 < s)
    (h h' : List ℝ) (hh : adaptiveEvents rule total data w = some h) (hh' : adaptiveEvents rule total data w' = some h') (i j : ℕ)
    (a b a' b' : ℝ) (h1 : h[i]? = some a) (h2 : h[j]? = some b) (h3 : h'[i]? = some a') (h4 : h'[j]? = some b') : a * b' = a' * b := by
  obtain ⟨c, rfl⟩ := adaptive_first_estimate_partial rule hr total ht data hd w s hs hpos h hh
  obtain ⟨c', rfl⟩ := adaptive_first_estimate_partial rule hr total ht data hd w' s hs hpos h' hh'
  simp only [List.getElem?_map, Option.map_eq_some_iff] at h1 h2 h3 h4
  obtain ⟨x, hx, rfl⟩ := h1
  obtain ⟨y, hy, rfl⟩ := h2
  obtain ⟨x', hx', rfl⟩ := h3
  obtain ⟨y', hy', rfl⟩ := h4
  rw [hx] at hx'; rw [hy] at hy'
  cases hx'; cases hy'
  ring

/-! ### A weighted sample -/

theorem wIqr : iqr ([0, 1, 2, 3] : List ℝ) (some [2, 1, 1, 1]) = some 2 := by
  have h := iqr_cast [0, 1, 2, 3] (some [2, 1, 1, 1])
  have e : iqr ([0, 1, 2, 3] : List ℚ) (some [2, 1, 1, 1]) = some 2 := by decide +kernel
  rw [e] at h
  simpa using h

theorem wStd : stdDev [0, 1, 2, 3] (some [2, 1, 1, 1]) = Real.sqrt (34 / 25) := by
  simp [stdDev]; norm_num

theorem wMin : ∃ m, minStdOrIqr [0, 1, 2, 3] (some [2, 1, 1, 1]) = some m ∧ 0 < m := by
  refine ⟨_, by rw [minStdOrIqr, wIqr, wStd]; rfl, lt_min (Real.sqrt_pos.2 (by norm_num)) (by norm_num)⟩

theorem wMin1 : ∃ m, minStdOrIqr [0, 1, 2, 3] none = some m ∧ 0 < m := by
  refine ⟨_, by rw [minStdOrIqr, four_iqr.1, four_std.1]; rfl, lt_min (Real.sqrt_pos.2 (by norm_num)) (by norm_num)⟩

theorem wSilver (w : Option (List ℝ)) (h : ∃ m, minStdOrIqr [0, 1, 2, 3] w = some m ∧ 0 < m) :
    ∃ s, silverman [0, 1, 2, 3] w = some s ∧ 0 < s := by
  obtain ⟨m, h1, h2⟩ := h
  refine ⟨_, by rw [silverman, ruleOfThumb, h1]; rfl, ?_⟩
  have : (0 : ℝ) < ((([0, 1, 2, 3] : List ℝ).length : ℝ)) ^ (-1 / 5 : ℝ) := Real.rpow_pos_of_pos (by norm_num) _
  positivity

theorem normalPdf_symm (d x s : ℝ) : normalPdf d s x = normalPdf x s d := by
  unfold normalPdf
  congr 2
  ring

theorem normalPdf_shift (d x s c : ℝ) : normalPdf (d + c) s (x + c) = normalPdf d s x := by
  unfold normalPdf
  congr 2
  ring

theorem normalPdf_lt (s : ℝ) (hs : 0 < s) : normalPdf 0 s 3 < normalPdf 0 s 0 := by
  unfold normalPdf
  have h0 : 0 < Real.sqrt (2 * Real.pi) := Real.sqrt_pos.2 (by positivity)
  apply div_lt_div_of_pos_right _ (by positivity)
  apply Real.exp_lt_exp.2
  have : 0 < (3 - 0) / s := by positivity
  have h2 : 0 < ((3 - 0) / s) ^ 2 := by positivity
  have h3 : ((0 - 0) / s) ^ 2 = 0 := by simp
  rw [h3]
  linarith

/-- All three rules give positive numbers for this sample. -/
theorem wPos (rule : List ℝ → (ℝ → ℝ) → Option (List ℝ) → Option (List ℝ)) (hr : IsAdaptive rule) (f : ℝ → ℝ) (hf : ∀ x, 0 < f x) :
    ∃ a b c d, rule [0, 1, 2, 3] f (some [2, 1, 1, 1]) = some [a, b, c, d] ∧ 0 < a := by
  obtain ⟨m, hm, hm0⟩ := wMin
  have hcount : (0 : ℝ) < eventCount [0, 1, 2, 3] (some [2, 1, 1, 1]) ^ (-1 / 5 : ℝ) :=
    Real.rpow_pos_of_pos (by simp [eventCount]; norm_num) _
  have h0 := hf 0
  have h1 := hf 1
  have h2 := hf 2
  have h3 := hf 3
  rcases hr with rfl | rfl | rfl
  · refine ⟨_, _, _, _, by rw [adaptiveGeom, hm]; rfl, ?_⟩
    have hg : 0 < geometricMean ([0, 1, 2, 3].map f) (some [2, 1, 1, 1]) := Real.exp_pos _
    have : 0 < Real.sqrt (f 0 / geometricMean ([0, 1, 2, 3].map f) (some [2, 1, 1, 1])) := Real.sqrt_pos.2 (div_pos h0 hg)
    exact mul_pos (mul_pos (by positivity) hcount) hm0
  · have hs : ∃ s, scott [0, 1, 2, 3] (some [2, 1, 1, 1]) = some s ∧ 0 < s := by
      refine ⟨_, by rw [scott, ruleOfThumb, hm]; rfl, ?_⟩
      have : (0 : ℝ) < ((([0, 1, 2, 3] : List ℝ).length : ℝ)) ^ (-1 / 5 : ℝ) := Real.rpow_pos_of_pos (by norm_num) _
      positivity
    obtain ⟨s, hs1, hs2⟩ := hs
    refine ⟨_, _, _, _, by rw [adaptiveZfit, hs1]; rfl, ?_⟩
    have q0 := Real.sqrt_pos.2 h0
    have q1 := Real.sqrt_pos.2 h1
    have q2 := Real.sqrt_pos.2 h2
    have q3 := Real.sqrt_pos.2 h3
    have : 0 < (([0, 1, 2, 3].map f).map Real.sqrt).sum / (([0, 1, 2, 3].map f).length : ℝ) := by
      simp only [List.map_cons, List.map_nil, List.sum_cons, List.sum_nil, List.length_cons, List.length_nil]
      positivity
    exact div_pos hs2 (div_pos q0 this)
  · refine ⟨_, _, _, _, by rw [adaptiveStd, hm]; rfl, ?_⟩
    have : 0 < Real.sqrt (m / f 0) := Real.sqrt_pos.2 (div_pos hm0 h0)
    exact mul_pos this (mul_pos hcount (by norm_num))

/-- C231 is violated: for the events 0, 1, 2, 3 with the weights 2, 1, 1, 1 the adaptive bandwidths are not proportional to the inverse
root of a KDE of the weighted sample, whatever its width: those at 0 and 3 are equal although the weighted density is larger at 0. -/
theorem adaptive_sample_violated (rule : List ℝ → (ℝ → ℝ) → Option (List ℝ) → Option (List ℝ)) (hr : IsAdaptive rule) (total : ℝ)
    (ht : 0 < total) :
    ∃ h, adaptiveEvents rule total [0, 1, 2, 3] (some [2, 1, 1, 1]) = some h ∧
      ∀ s, 0 < s → ¬ InverseRootOf [0, 1, 2, 3] [2, 1, 1, 1] s h := by
  obtain ⟨s1, hs1, hp1⟩ := wSilver none wMin1
  have hd : ([0, 1, 2, 3] : List ℝ) ≠ [] := by simp
  have hf : firstEstimate total [0, 1, 2, 3] none =
      some fun x => (([0, 1, 2, 3] : List ℝ).map fun d => normalPdf d s1 x).sum / (([0, 1, 2, 3] : List ℝ).length : ℝ) / total := by
    simp only [firstEstimate, hs1, Option.map_some, (kde_unweighted _ hd s1 _).1, Option.getD_some]
  obtain ⟨a, b, c, d, hrule, ha⟩ := wPos rule hr
    (fun x => (([0, 1, 2, 3] : List ℝ).map fun d => normalPdf d s1 x).sum / (([0, 1, 2, 3] : List ℝ).length : ℝ) / total)
    (fun x => div_pos (mean_pos _ hd s1 x hp1) ht)
  have hh : adaptiveEvents rule total [0, 1, 2, 3] (some [2, 1, 1, 1]) = some [a, b, c, d] := by
    simp only [adaptiveEvents, hf, Option.bind_some]
    exact hrule
  refine ⟨_, hh, ?_⟩
  -- the bandwidths at 0 and 3 are equal
  obtain ⟨k, hk⟩ := adaptive_first_estimate_partial rule hr total ht _ hd _ s1 hs1 hp1 _ hh
  have sh : ∀ s y, normalPdf y s 3 = normalPdf (3 - y) s 0 := by
    intro s y
    unfold normalPdf
    congr 2
    ring
  have had : a = d := by
    simp only [List.map_cons, List.map_nil, List.zipWith_cons_cons, List.zipWith_nil_left, List.sum_cons, List.sum_nil,
      List.cons.injEq, and_true, one_mul, add_zero] at hk
    obtain ⟨h1, -, -, h4⟩ := hk
    rw [h1, h4, sh, sh s1 1, sh s1 2, sh s1 3]
    norm_num
    congr 3
    ring
  intro s hs hlaw
  obtain ⟨c', hc⟩ := hlaw
  simp only [List.map_cons, List.map_nil, List.zipWith_cons_cons, List.zipWith_nil_left, List.sum_cons, List.sum_nil,
    List.cons.injEq, and_true, one_mul, add_zero] at hc
  obtain ⟨h1, -, -, h4⟩ := hc
  rw [sh, sh s 1, sh s 2, sh s 3] at h4
  norm_num at h1 h4
  have l0 := normalPdf_lt s hs
  have p0 := normalPdf_pos 0 s 0 hs
  have p1 := normalPdf_pos 1 s 0 hs
  have p2 := normalPdf_pos 2 s 0 hs
  have p3 := normalPdf_pos 3 s 0 hs
  rw [normalPdf_symm 0 3] at l0
  have hlt : Real.sqrt (2 * normalPdf 3 s 0 + (normalPdf 2 s 0 + (normalPdf 1 s 0 + normalPdf 0 s 0))) <
      Real.sqrt (2 * normalPdf 0 s 0 + (normalPdf 1 s 0 + (normalPdf 2 s 0 + normalPdf 3 s 0))) :=
    Real.sqrt_lt_sqrt (by linarith) (by linarith)
  have hq : 0 < Real.sqrt (2 * normalPdf 3 s 0 + (normalPdf 2 s 0 + (normalPdf 1 s 0 + normalPdf 0 s 0))) :=
    Real.sqrt_pos.2 (by linarith)
  have h5 : 0 < Real.sqrt 5 := Real.sqrt_pos.2 (by norm_num)
  generalize Real.sqrt (2 * normalPdf 3 s 0 + (normalPdf 2 s 0 + (normalPdf 1 s 0 + normalPdf 0 s 0))) = q at *
  generalize Real.sqrt (2 * normalPdf 0 s 0 + (normalPdf 1 s 0 + (normalPdf 2 s 0 + normalPdf 3 s 0))) = p at *
  generalize Real.sqrt 5 = r at *
  have hpp : 0 < p := hq.trans hlt
  rw [div_div_eq_mul_div, eq_div_iff (by positivity)] at h1 h4
  rw [← had] at h4
  have : a * p = a * q := by rw [h1, h4]
  have := mul_left_cancel₀ ha.ne' this
  linarith

/-- A case that meets the hypotheses: the sample 0, 1, 2, 3, for which Silverman's bandwidth is positive and all rules give
bandwidths, with and without weights. -/
example (rule : List ℝ → (ℝ → ℝ) → Option (List ℝ) → Option (List ℝ)) (hr : IsAdaptive rule) :
    (∃ s, silverman [0, 1, 2, 3] none = some s ∧ 0 < s) ∧ ∃ h, adaptiveEvents rule 1 [0, 1, 2, 3] (some [2, 1, 1, 1]) = some h :=
  ⟨wSilver none wMin1, (adaptive_sample_violated rule hr 1 one_pos).imp fun _ h => h.1⟩

end Zfit.Kde
