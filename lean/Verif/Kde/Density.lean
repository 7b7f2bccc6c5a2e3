import Verif.Kde.Props
import Mathlib.Probability.Distributions.Gaussian.Real

/-! The density of the exact kernel density estimate (C83). -/

namespace Zfit.Kde

open Zfit MeasureTheory

/-- `tfd.Normal(loc, scale).prob(x)`: the exponential of `-((x - loc) / scale)² / 2 - log(2π) / 2 - log(scale)`
(TensorFlow Probability; trusted), for a positive scale. -/
noncomputable def normalPdf (loc scale x : ℝ) : ℝ := Real.exp (-(1 / 2) * ((x - loc) / scale) ^ 2) / (Real.sqrt (2 * Real.pi) * scale)

/-- The bandwidth: one for all or one for each event. -/
inductive Bandwidth
  | scalar (h : ℝ)
  | array (h : List ℝ)

/-- The bandwidth of every kernel, by broadcasting. -/
def Bandwidth.toList (n : ℕ) : Bandwidth → List ℝ
  | .scalar h => List.replicate n h
  | .array h => h

/-- zfit/models/kde.py 956-1024 `KDE1DimExact` with the normal kernel (or 728-776 `GaussianKDE1DimV1` without truncation) and a
numerical bandwidth, evaluated at `x`. The normalisation over the norm range is done by the base class (area `Pdf`). -/
noncomputable def exactKde (data : List ℝ) (weights : Option (List ℝ)) (bw : Bandwidth) (x : ℝ) : Option ℝ :=
  mixture (kernelProbs data.length weights) (List.zipWith (fun d h => normalPdf d h x) data (bw.toList data.length))

/-- Specification: the weighted mean of the kernels. An event is its position, its weight and its bandwidth. -/
noncomputable def weightedMean (events : List (ℝ × ℝ × ℝ)) (x : ℝ) : ℝ :=
  (events.map fun e => e.2.1 * normalPdf e.1 e.2.2 x).sum / (events.map fun e => e.2.1).sum

theorem zipWith_map_map {A B C D : Type} (l : List A) (f : A → B) (g : A → C) (k : B → C → D) :
    List.zipWith k (l.map f) (l.map g) = l.map fun a => k (f a) (g a) := by
  induction l with
  | nil => rfl
  | cons a l ih => simp [ih]

theorem sum_map_div {A : Type} (l : List A) (f : A → ℝ) (c : ℝ) : (l.map fun a => f a / c).sum = (l.map f).sum / c := by
  induction l with
  | nil => simp
  | cons a l ih => simp [ih, add_div]

/-- C83. With weights that are not negative and not all zero, the estimate is the mean of the kernels at the events, weighted
with their weights. -/
theorem kde_weighted (events : List (ℝ × ℝ × ℝ)) (hw : ∀ e ∈ events, 0 ≤ e.2.1) (hs : 0 < (events.map fun e => e.2.1).sum) (x : ℝ) :
    exactKde (events.map (·.1)) (some (events.map (·.2.1))) (.array (events.map (·.2.2))) x = some (weightedMean events x) := by
  have hp : kernelProbs (events.map (·.1)).length (some (events.map (·.2.1))) = events.map fun e => e.2.1 / (events.map (·.2.1)).sum := by
    simp only [kernelProbs, List.map_map]
    rfl
  unfold exactKde mixture
  rw [hp]
  have hsum : (events.map fun e => e.2.1 / (events.map (·.2.1)).sum).sum = 1 := by
    rw [sum_map_div]
    exact div_self hs.ne'
  rw [hsum]
  have hany : ¬ ((events.map fun e => e.2.1 / (events.map (·.2.1)).sum).any (· < 0)) = true := by
    simp only [List.any_map, List.any_eq_true, Function.comp, decide_eq_true_eq, not_exists, not_and, not_lt]
    intro e he
    exact div_nonneg (hw e he) hs.le
  rw [if_neg hany, if_neg one_ne_zero]
  simp only [Bandwidth.toList]
  rw [zipWith_map_map, zipWith_map_map]
  congr 1
  unfold weightedMean
  rw [← sum_map_div]
  congr 1
  apply List.map_congr_left
  intro e _
  rw [div_one]
  ring

/-- C83. Without weights every kernel counts the same. -/
theorem kde_unweighted (data : List ℝ) (hd : data ≠ []) (h : ℝ) (x : ℝ) :
    exactKde data none (.scalar h) x = some ((data.map fun d => normalPdf d h x).sum / data.length) ∧
    exactKde data none (.scalar h) x = exactKde data (some (data.map fun _ => 1)) (.array (data.map fun _ => h)) x := by
  have hlen : (0 : ℝ) < data.length := by
    have := List.length_pos_iff.2 hd
    exact_mod_cast this
  have hrep : ∀ c : ℝ, List.replicate data.length c = data.map fun _ => c := by
    intro c
    induction data with
    | nil => rfl
    | cons a l ih =>
      by_cases hl : l = []
      · subst hl; rfl
      · rw [List.length_cons, List.replicate_succ, List.map_cons, ih hl (by
          have := List.length_pos_iff.2 hl
          exact_mod_cast this)]
  have hones : (data.map fun _ => (1 : ℝ)).sum = data.length := by
    simp
  have h1 : exactKde data none (.scalar h) x = exactKde data (some (data.map fun _ => 1)) (.array (data.map fun _ => h)) x := by
    unfold exactKde
    simp only [kernelProbs, Bandwidth.toList, List.map_map]
    rw [hrep, hrep, hones]
    rfl
  refine ⟨?_, h1⟩
  rw [h1]
  have key := kde_weighted (data.map fun d => (d, (1 : ℝ), h)) (by
    intro e he
    obtain ⟨d, _, rfl⟩ := List.mem_map.1 he
    exact zero_le_one) (by
      rw [List.map_map]
      have : (fun e : ℝ × ℝ × ℝ => e.2.1) ∘ (fun d : ℝ => (d, (1 : ℝ), h)) = fun _ => 1 := rfl
      rw [this, hones]
      exact hlen) x
  simp only [List.map_map] at key
  have e1 : (fun e : ℝ × ℝ × ℝ => e.1) ∘ (fun d : ℝ => (d, (1 : ℝ), h)) = id := rfl
  have e2 : (fun e : ℝ × ℝ × ℝ => e.2.1) ∘ (fun d : ℝ => (d, (1 : ℝ), h)) = fun _ => 1 := rfl
  have e3 : (fun e : ℝ × ℝ × ℝ => e.2.2) ∘ (fun d : ℝ => (d, (1 : ℝ), h)) = fun _ => h := rfl
  rw [e1, e2, e3, List.map_id] at key
  rw [key]
  unfold weightedMean
  simp only [List.map_map]
  rw [e2, hones]
  congr 2
  congr 1
  apply List.map_congr_left
  intro d _
  simp

theorem normalPdf_eq (loc scale x : ℝ) (hs : 0 < scale) :
    normalPdf loc scale x = ProbabilityTheory.gaussianPDFReal loc (Real.toNNReal (scale ^ 2)) x := by
  unfold normalPdf ProbabilityTheory.gaussianPDFReal
  rw [Real.coe_toNNReal _ (sq_nonneg _)]
  have h1 : Real.sqrt (2 * Real.pi * scale ^ 2) = Real.sqrt (2 * Real.pi) * scale := by
    rw [Real.sqrt_mul (by positivity), Real.sqrt_sq hs.le]
  rw [h1, div_eq_inv_mul]
  congr 2
  field_simp

theorem normalPdf_pos (loc scale x : ℝ) (hs : 0 < scale) : 0 < normalPdf loc scale x := by
  unfold normalPdf
  have := Real.pi_pos
  positivity

theorem normalPdf_integral (loc scale : ℝ) (hs : 0 < scale) :
    Integrable (normalPdf loc scale) ∧ ∫ x, normalPdf loc scale x = 1 := by
  have he : normalPdf loc scale = ProbabilityTheory.gaussianPDFReal loc (Real.toNNReal (scale ^ 2)) :=
    funext fun x => normalPdf_eq loc scale x hs
  have hv : Real.toNNReal (scale ^ 2) ≠ 0 := by
    rw [ne_eq, Real.toNNReal_eq_zero, not_le]
    exact pow_pos hs 2
  rw [he]
  exact ⟨ProbabilityTheory.integrable_gaussianPDFReal _ _, ProbabilityTheory.integral_gaussianPDFReal_eq_one _ hv⟩

/-- C83. The estimate is a probability density: positive everywhere, with the integral one. -/
theorem kde_is_density (events : List (ℝ × ℝ × ℝ)) (hw : ∀ e ∈ events, 0 ≤ e.2.1) (hs : 0 < (events.map fun e => e.2.1).sum)
    (hh : ∀ e ∈ events, 0 < e.2.2) :
    (∀ x, 0 < weightedMean events x) ∧ Integrable (weightedMean events) ∧ ∫ x, weightedMean events x = 1 := by
  have hsum : ∀ l : List (ℝ × ℝ × ℝ), (∀ e ∈ l, 0 < e.2.2) →
      Integrable (fun x => (l.map fun e => e.2.1 * normalPdf e.1 e.2.2 x).sum) ∧
      ∫ x, (l.map fun e => e.2.1 * normalPdf e.1 e.2.2 x).sum = (l.map fun e => e.2.1).sum := by
    intro l hl
    induction l with
    | nil => simp
    | cons e l ih =>
      obtain ⟨i1, i2⟩ := ih fun e' he' => hl e' (List.mem_cons_of_mem _ he')
      obtain ⟨n1, n2⟩ := normalPdf_integral e.1 e.2.2 (hl e (List.mem_cons_self ..))
      simp only [List.map_cons, List.sum_cons]
      refine ⟨(n1.const_mul _).add i1, ?_⟩
      rw [integral_add (n1.const_mul _) i1, integral_const_mul, n2, i2, mul_one]
  refine ⟨fun x => ?_, (hsum events hh).1.div_const _, ?_⟩
  · unfold weightedMean
    refine div_pos ?_ hs
    have hpos : ∃ e ∈ events, 0 < e.2.1 := by
      by_contra hc
      push Not at hc
      have : ∀ l : List (ℝ × ℝ × ℝ), (∀ e ∈ l, e.2.1 ≤ 0) → (l.map fun e => e.2.1).sum ≤ 0 := by
        intro l hl
        induction l with
        | nil => simp
        | cons a l ih =>
          rw [List.map_cons, List.sum_cons]
          have := ih fun e he => hl e (List.mem_cons_of_mem _ he)
          have := hl a (List.mem_cons_self ..)
          linarith
      have := this events hc
      linarith
    obtain ⟨e, he, hpe⟩ := hpos
    have hmem : e.2.1 * normalPdf e.1 e.2.2 x ∈ events.map fun e => e.2.1 * normalPdf e.1 e.2.2 x :=
      List.mem_map.2 ⟨e, he, rfl⟩
    refine lt_of_lt_of_le (mul_pos hpe (normalPdf_pos _ _ _ (hh e he))) (List.single_le_sum ?_ _ hmem)
    intro a ha
    obtain ⟨e', he', rfl⟩ := List.mem_map.1 ha
    exact mul_nonneg (hw e' he') (normalPdf_pos _ _ _ (hh e' he')).le
  · have : weightedMean events = fun x => (events.map fun e => e.2.1 * normalPdf e.1 e.2.2 x).sum / (events.map fun e => e.2.1).sum := rfl
    rw [this, integral_div, (hsum events hh).2, div_self hs.ne']

theorem mean_scale (events : List (ℝ × ℝ × ℝ)) (c : ℝ) (hc : c ≠ 0) (x : ℝ) :
    weightedMean (events.map fun e => (e.1, c * e.2.1, e.2.2)) x = weightedMean events x := by
  unfold weightedMean
  simp only [List.map_map, Function.comp_def]
  have h1 : (events.map fun e => c * e.2.1 * normalPdf e.1 e.2.2 x).sum = c * (events.map fun e => e.2.1 * normalPdf e.1 e.2.2 x).sum := by
    rw [← List.sum_map_mul_left]
    congr 1
    apply List.map_congr_left
    intro e _
    ring
  have h2 : (events.map fun e => c * e.2.1).sum = c * (events.map fun e => e.2.1).sum := by
    rw [← List.sum_map_mul_left]
  rw [h1, h2, mul_div_mul_left _ _ hc]

theorem mean_order (l l' : List (ℝ × ℝ × ℝ)) (h : l.Perm l') (x : ℝ) : weightedMean l x = weightedMean l' x := by
  unfold weightedMean
  rw [(h.map _).sum_eq, (h.map _).sum_eq]

theorem mean_count (events : List (ℝ × ℕ × ℝ)) (x : ℝ) :
    weightedMean (events.map fun e => (e.1, (e.2.1 : ℝ), e.2.2)) x =
      weightedMean (events.flatMap fun e => List.replicate e.2.1 (e.1, (1 : ℝ), e.2.2)) x := by
  have h : ∀ f : ℝ × ℝ × ℝ → ℝ, (∀ a w h, f (a, w, h) = w * f (a, 1, h)) →
      ((events.map fun e => (e.1, (e.2.1 : ℝ), e.2.2)).map f).sum =
      ((events.flatMap fun e => List.replicate e.2.1 (e.1, (1 : ℝ), e.2.2)).map f).sum := by
    intro f hf
    induction events with
    | nil => rfl
    | cons e l ih =>
      simp only [List.map_cons, List.sum_cons, List.flatMap_cons, List.map_append, List.sum_append, ih, List.map_replicate,
        List.sum_replicate, nsmul_eq_mul]
      rw [hf]
  unfold weightedMean
  rw [h _ (fun a w h => by ring), h _ (fun a w h => by ring)]

/-- The estimate from events with their weights and bandwidths. -/
noncomputable def estimate (events : List (ℝ × ℝ × ℝ)) (x : ℝ) : Option ℝ :=
  exactKde (events.map (·.1)) (some (events.map (·.2.1))) (.array (events.map (·.2.2))) x

/-- C83. A common factor of the weights does not matter. -/
theorem kde_weights_scale (events : List (ℝ × ℝ × ℝ)) (hw : ∀ e ∈ events, 0 ≤ e.2.1) (hs : 0 < (events.map fun e => e.2.1).sum)
    (c : ℝ) (hc : 0 < c) (x : ℝ) : estimate (events.map fun e => (e.1, c * e.2.1, e.2.2)) x = estimate events x := by
  unfold estimate
  rw [kde_weighted events hw hs, kde_weighted, mean_scale events c hc.ne']
  · intro e he
    obtain ⟨e', he', rfl⟩ := List.mem_map.1 he
    exact mul_nonneg hc.le (hw e' he')
  · rw [List.map_map]
    have : ((fun e : ℝ × ℝ × ℝ => e.2.1) ∘ fun e : ℝ × ℝ × ℝ => (e.1, c * e.2.1, e.2.2)) = fun e => c * e.2.1 := rfl
    rw [this, List.sum_map_mul_left]
    exact mul_pos hc hs

/-- C83. The order of the events does not matter. -/
theorem kde_order (l l' : List (ℝ × ℝ × ℝ)) (h : l.Perm l') (hw : ∀ e ∈ l, 0 ≤ e.2.1) (hs : 0 < (l.map fun e => e.2.1).sum) (x : ℝ) :
    estimate l x = estimate l' x := by
  unfold estimate
  rw [kde_weighted l hw hs, kde_weighted l' (fun e he => hw e (h.mem_iff.2 he)) (by rw [← (h.map _).sum_eq]; exact hs), mean_order l l' h]

/-- C83. With a numerical bandwidth, an event of weight `k` is the same as `k` events: the weighted estimate is the unweighted one
of the sample in which every event is repeated as often as its weight says. -/
theorem kde_weight_is_count (events : List (ℝ × ℕ)) (hne : ∃ e ∈ events, e.2 ≠ 0) (h x : ℝ) :
    exactKde (events.map (·.1)) (some (events.map fun e => (e.2 : ℝ))) (.scalar h) x =
      exactKde (events.flatMap fun e => List.replicate e.2 e.1) none (.scalar h) x := by
  have hs : 0 < (events.map fun e => (e.2 : ℝ)).sum := by
    obtain ⟨e, he, hp⟩ := hne
    have hm : (e.2 : ℝ) ∈ events.map fun e => (e.2 : ℝ) := List.mem_map.2 ⟨e, he, rfl⟩
    refine lt_of_lt_of_le (by exact_mod_cast Nat.pos_of_ne_zero hp) (List.single_le_sum ?_ _ hm)
    intro a ha
    obtain ⟨e', _, rfl⟩ := List.mem_map.1 ha
    exact Nat.cast_nonneg _
  have hrep : ∀ (l : List (ℝ × ℕ)) (c : ℝ), List.replicate (l.map (·.1)).length c = l.map fun _ => c := by
    intro l c
    induction l with
    | nil => rfl
    | cons a l ih => rw [List.map_cons, List.length_cons, List.replicate_succ, List.map_cons, ih]
  have hne' : (events.flatMap fun e => List.replicate e.2 e.1) ≠ [] := by
    obtain ⟨e, he, hp⟩ := hne
    intro hc
    rw [List.flatMap_eq_nil_iff] at hc
    have := hc e he
    rw [List.replicate_eq_nil_iff] at this
    exact hp this
  rw [(kde_unweighted _ hne' h x).1]
  have h1 := kde_weighted (events.map fun e => (e.1, (e.2 : ℝ), h)) (by
    intro e he
    obtain ⟨e', _, rfl⟩ := List.mem_map.1 he
    exact Nat.cast_nonneg _) (by rw [List.map_map]; exact hs) x
  simp only [List.map_map, Function.comp_def] at h1
  have h2 : exactKde (events.map (·.1)) (some (events.map fun e => (e.2 : ℝ))) (.scalar h) x =
      exactKde (events.map (·.1)) (some (events.map fun e => (e.2 : ℝ))) (.array (events.map fun _ => h)) x := by
    unfold exactKde
    simp only [Bandwidth.toList]
    rw [hrep]
  rw [h2, h1]
  have h3 := mean_count (events.map fun e => (e.1, e.2, h)) x
  simp only [List.map_map, Function.comp_def] at h3
  rw [h3]
  congr 1
  unfold weightedMean
  have h4 : ((events.map fun e => (e.1, e.2, h)).flatMap fun e => List.replicate e.2.1 (e.1, (1 : ℝ), e.2.2)) =
      (events.flatMap fun e => List.replicate e.2 e.1).map fun d => (d, (1 : ℝ), h) := by
    rw [List.flatMap_map, List.map_flatMap]
    congr 1
    funext e
    simp
  rw [h4, List.map_map, List.map_map]
  congr 1
  · congr 1
    apply List.map_congr_left
    intro d _
    simp
  · have : ((fun e : ℝ × ℝ × ℝ => e.2.1) ∘ fun d : ℝ => (d, (1 : ℝ), h)) = fun _ => 1 := rfl
    rw [this]
    simp

/-- C83. The same with one bandwidth for each event: without weights it is the estimate of weights one, … -/
theorem kde_unweighted_array (data hs : List ℝ) (x : ℝ) :
    exactKde data none (.array hs) x = exactKde data (some (data.map fun _ => 1)) (.array hs) x := by
  have hrep : ∀ (l : List ℝ) (c : ℝ), List.replicate l.length c = l.map fun _ => c := by
    intro l c
    induction l with
    | nil => rfl
    | cons a l ih => rw [List.length_cons, List.replicate_succ, List.map_cons, ih]
  have hones : (data.map fun _ => (1 : ℝ)).sum = data.length := by simp
  unfold exactKde
  simp only [kernelProbs, Bandwidth.toList, List.map_map]
  rw [hrep, hones]
  rfl

/-- C83. … and an event of weight `k` and bandwidth `h` is the same as `k` events of bandwidth `h`. -/
theorem kde_weight_is_count_array (events : List (ℝ × ℕ × ℝ)) (hne : ∃ e ∈ events, e.2.1 ≠ 0) (x : ℝ) :
    exactKde (events.map (·.1)) (some (events.map fun e => (e.2.1 : ℝ))) (.array (events.map (·.2.2))) x =
      exactKde (events.flatMap fun e => List.replicate e.2.1 e.1) none (.array (events.flatMap fun e => List.replicate e.2.1 e.2.2)) x := by
  have hs : 0 < (events.map fun e => (e.2.1 : ℝ)).sum := by
    obtain ⟨e, he, hp⟩ := hne
    have hm : (e.2.1 : ℝ) ∈ events.map fun e => (e.2.1 : ℝ) := List.mem_map.2 ⟨e, he, rfl⟩
    refine lt_of_lt_of_le (by exact_mod_cast Nat.pos_of_ne_zero hp) (List.single_le_sum ?_ _ hm)
    intro a ha
    obtain ⟨e', _, rfl⟩ := List.mem_map.1 ha
    exact Nat.cast_nonneg _
  have h1 := kde_weighted (events.map fun e => (e.1, (e.2.1 : ℝ), e.2.2)) (by
    intro e he
    obtain ⟨e', _, rfl⟩ := List.mem_map.1 he
    exact Nat.cast_nonneg _) (by rw [List.map_map]; exact hs) x
  simp only [List.map_map, Function.comp_def] at h1
  rw [h1, mean_count events x, kde_unweighted_array]
  have h2 := kde_weighted (events.flatMap fun e => List.replicate e.2.1 (e.1, (1 : ℝ), e.2.2)) (by
    intro e he
    obtain ⟨e', _, he'⟩ := List.mem_flatMap.1 he
    rw [(List.mem_replicate.1 he').2]
    exact zero_le_one) (by
      obtain ⟨e, he, hp⟩ := hne
      have hm : (1 : ℝ) ∈ (events.flatMap fun e => List.replicate e.2.1 (e.1, (1 : ℝ), e.2.2)).map fun e => e.2.1 :=
        List.mem_map.2 ⟨(e.1, 1, e.2.2), List.mem_flatMap.2 ⟨e, he, List.mem_replicate.2 ⟨hp, rfl⟩⟩, rfl⟩
      refine lt_of_lt_of_le one_pos (List.single_le_sum ?_ _ hm)
      intro a ha
      obtain ⟨e', he', rfl⟩ := List.mem_map.1 ha
      obtain ⟨e'', _, he''⟩ := List.mem_flatMap.1 he'
      rw [(List.mem_replicate.1 he'').2]
      exact zero_le_one) x
  rw [← h2]
  simp only [List.map_flatMap, List.map_replicate]

/-- The hypotheses of the theorems are met: two events of weights 1 and 3 and different bandwidths. -/
example : (∀ e ∈ [((0 : ℝ), (1 : ℝ), (1 : ℝ)), (2, 3, 1 / 2)], 0 ≤ e.2.1) ∧ 0 < ([((0 : ℝ), (1 : ℝ), (1 : ℝ)), (2, 3, 1 / 2)].map fun e => e.2.1).sum ∧
    ∀ e ∈ [((0 : ℝ), (1 : ℝ), (1 : ℝ)), (2, 3, 1 / 2)], 0 < e.2.2 := by
  refine ⟨?_, by norm_num, ?_⟩ <;> intro e he <;> simp at he <;> rcases he with rfl | rfl <;> norm_num

/-- C83 refuted for samples with a negative weight (which zfit data may have): the estimate is NaN everywhere, even if the sum of
the weights is positive. -/
theorem kde_negative_weight_violated (x : ℝ) : exactKde [0, 1, 2] (some [3, -1, 2]) (.scalar 1) x = none := by
  unfold exactKde mixture kernelProbs
  rw [if_pos]
  simp only [List.map_cons, List.map_nil, List.sum_cons, List.sum_nil, List.any_cons, List.any_nil]
  norm_num

end Zfit.Kde
