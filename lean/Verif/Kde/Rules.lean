import Verif.Kde.RulesModel

/-! C85 (bandwidth rules) and C86 (adaptive bandwidths). -/

namespace Zfit.Kde

section quantiles

variable {K : Type} [Field K] [LinearOrder K]

theorem percentile_map {K' : Type} [Field K'] [LinearOrder K'] (q : ℚ) (x : List K) (f : K → K') (hf : ∀ a b, a ≤ b ↔ f a ≤ f b) :
    percentile q (x.map f) = (percentile q x).map f := by
  unfold percentile
  rw [List.length_map, ← List.map_insertionSort (r := (· ≥ ·)) (s := (· ≥ ·)) f x (fun a _ b _ => hf b a), List.getElem?_map]

theorem sort_map {K' : Type} [Field K'] [LinearOrder K'] (events : List (K × K)) (f g : K → K') (hf : ∀ a b, a ≤ b ↔ f a ≤ f b) :
    (events.map fun e => (f e.1, g e.2)).insertionSort (fun a b => a.1 ≤ b.1) =
      (events.insertionSort fun a b => a.1 ≤ b.1).map fun e => (f e.1, g e.2) :=
  (List.map_insertionSort (r := fun a b : K × K => a.1 ≤ b.1) (s := fun a b : K' × K' => a.1 ≤ b.1)
    (fun e => (f e.1, g e.2)) events (fun a _ b _ => hf a.1 b.1)).symm

/-- Quantiles follow a change of the values that keeps their order and their middle, and a change of the weights that keeps the
positions. -/
theorem weightedQuantile_map {K' : Type} [Field K'] [LinearOrder K'] (q : K) (q' : K') (events : List (K × K)) (f g p : K → K')
    (hf : ∀ a b, a ≤ b ↔ f a ≤ f b) (hm : ∀ a b, f ((a + b) / 2) = (f a + f b) / 2)
    (hg : ∀ ws : List K, ws.Perm (events.map (·.2)) → positions (ws.map g) = (positions ws).map p)
    (hp : ∀ w, (w < q ↔ p w < q') ∧ (w ≤ q ↔ p w ≤ q')) :
    weightedQuantile q' (events.map fun e => (f e.1, g e.2)) = (weightedQuantile q events).map f := by
  unfold weightedQuantile
  simp only
  rw [sort_map events f g hf]
  have h1 : ((events.insertionSort fun a b => a.1 ≤ b.1).map fun e => (f e.1, g e.2)).map (·.2) =
      ((events.insertionSort fun a b => a.1 ≤ b.1).map (·.2)).map g := by
    rw [List.map_map, List.map_map]; rfl
  rw [h1, hg _ ((List.perm_insertionSort _ _).map _), List.filter_map, List.filter_map, List.length_map, List.length_map]
  have h2 : ∀ l : List K, l.filter ((fun x => decide (x < q')) ∘ p) = l.filter fun x => decide (x < q) := by
    intro l
    apply List.filter_congr
    intro a _
    simp only [Function.comp, (hp a).1]
  have h3 : ∀ l : List K, l.filter ((fun x => decide (x ≤ q')) ∘ p) = l.filter fun x => decide (x ≤ q) := by
    intro l
    apply List.filter_congr
    intro a _
    simp only [Function.comp, (hp a).2]
  rw [h2, h3, List.getElem?_map, List.getElem?_map]
  generalize (events.insertionSort fun a b => a.1 ≤ b.1)[(List.filter (fun x => decide (x < q)) _).length]? = u
  generalize (events.insertionSort fun a b => a.1 ≤ b.1)[(List.filter (fun x => decide (x ≤ q)) _).length]? = v
  cases u <;> cases v <;> simp [hm]

variable [IsStrictOrderedRing K]

theorem cum_scale (c acc : K) (ws : List K) : cumMinusHalf (c * acc) (ws.map (c * ·)) = (cumMinusHalf acc ws).map (c * ·) := by
  induction ws generalizing acc with
  | nil => rfl
  | cons w ws ih =>
    simp only [List.map_cons, cumMinusHalf]
    rw [← mul_add, ih]
    congr 1
    ring

theorem positions_scale (c : K) (hc : c ≠ 0) (ws : List K) : positions (ws.map (c * ·)) = positions ws := by
  unfold positions
  have h := cum_scale c 0 ws
  rw [mul_zero] at h
  have hs : (ws.map (c * ·)).sum = c * ws.sum := by
    rw [List.sum_map_mul_left]; simp
  rw [h, hs, List.map_map]
  apply List.map_congr_left
  intro a _
  simp only [Function.comp]
  rw [mul_div_mul_left _ _ hc]

theorem iqr_affine (a b : K) (ha : 0 < a) (data : List K) (weights : Option (List K)) :
    iqr (data.map fun x => a * x + b) weights = (iqr data weights).map (a * ·) := by
  have hf : ∀ x y : K, x ≤ y ↔ a * x + b ≤ a * y + b := by
    intro x y
    rw [add_le_add_iff_right, mul_le_mul_iff_right₀ ha]
  cases weights with
  | none =>
    simp only [iqr, percentile_map _ data (fun x => a * x + b) hf]
    rcases percentile 75 data with _ | u <;> rcases percentile 25 data with _ | v <;> simp
    ring
  | some ws =>
    simp only [iqr]
    have h : ∀ q : K, weightedQuantile q ((data.map fun x => a * x + b).zip ws) =
        (weightedQuantile q (data.zip ws)).map fun x => a * x + b := by
      intro q
      have hz : (data.map fun x => a * x + b).zip ws = (data.zip ws).map fun e => (a * e.1 + b, e.2) := by
        rw [List.zip_map_left]; rfl
      rw [hz]
      exact weightedQuantile_map q q (data.zip ws) (fun x => a * x + b) id id hf (fun x y => by ring) (fun ws _ => by simp)
        (fun w => ⟨Iff.rfl, Iff.rfl⟩)
    rw [h, h]
    rcases weightedQuantile (3 / 4) (data.zip ws) with _ | u <;> rcases weightedQuantile (1 / 4) (data.zip ws) with _ | v <;> simp
    ring

theorem iqr_weights_scale (c : K) (hc : 0 < c) (data ws : List K) : iqr data (some (ws.map (c * ·))) = iqr data (some ws) := by
  have h : ∀ q : K, weightedQuantile q (data.zip (ws.map (c * ·))) = weightedQuantile q (data.zip ws) := by
    intro q
    have hz : data.zip (ws.map (c * ·)) = (data.zip ws).map fun e => (e.1, c * e.2) := by
      rw [List.zip_map_right]; rfl
    rw [hz]
    have := weightedQuantile_map q q (data.zip ws) id (c * ·) id (fun a b => Iff.rfl) (fun a b => rfl)
      (fun ws _ => by rw [positions_scale c hc.ne']; simp) (fun w => ⟨Iff.rfl, Iff.rfl⟩)
    simpa using this
  simp only [iqr, h]

end quantiles

theorem sum_affine (a b : ℝ) (ws data : List ℝ) (h : ws.length = data.length) :
    (List.zipWith (· * ·) ws (data.map fun x => a * x + b)).sum = a * (List.zipWith (· * ·) ws data).sum + b * ws.sum := by
  induction ws generalizing data with
  | nil => simp
  | cons w ws ih =>
    cases data with
    | nil => simp at h
    | cons d data =>
      simp only [List.map_cons, List.zipWith_cons_cons, List.sum_cons]
      rw [ih data (by simpa using h)]
      ring

theorem sum_sq_affine (a b m : ℝ) (ws data : List ℝ) :
    (List.zipWith (fun w x => w * (x - (a * m + b)) ^ 2) ws (data.map fun x => a * x + b)).sum =
      a ^ 2 * (List.zipWith (fun w x => w * (x - m) ^ 2) ws data).sum := by
  induction ws generalizing data with
  | nil => simp
  | cons w ws ih =>
    cases data with
    | nil => simp
    | cons d data =>
      simp only [List.map_cons, List.zipWith_cons_cons, List.sum_cons]
      rw [ih data]
      ring

/-- What is asked of the weights: one for each event, with a positive sum. Without weights: at least one event. -/
def Usable (data : List ℝ) : Option (List ℝ) → Prop
  | none => data ≠ []
  | some ws => ws.length = data.length ∧ 0 < ws.sum

theorem std_affine (a b : ℝ) (ha : 0 < a) (data : List ℝ) (weights : Option (List ℝ)) (hw : Usable data weights) :
    stdDev (data.map fun x => a * x + b) weights = a * stdDev data weights := by
  have key : ∀ ws : List ℝ, ws.length = data.length → 0 < ws.sum →
      Real.sqrt ((List.zipWith (fun w x => w * (x - (List.zipWith (· * ·) ws (data.map fun x => a * x + b)).sum / ws.sum) ^ 2) ws
        (data.map fun x => a * x + b)).sum / ws.sum) =
      a * Real.sqrt ((List.zipWith (fun w x => w * (x - (List.zipWith (· * ·) ws data).sum / ws.sum) ^ 2) ws data).sum / ws.sum) := by
    intro ws h1 h2
    have hm : (List.zipWith (· * ·) ws (data.map fun x => a * x + b)).sum / ws.sum =
        a * ((List.zipWith (· * ·) ws data).sum / ws.sum) + b := by
      rw [sum_affine a b ws data h1]
      field_simp
    rw [hm, sum_sq_affine, mul_div_assoc, Real.sqrt_mul (sq_nonneg a), Real.sqrt_sq ha.le]
  unfold stdDev
  cases weights with
  | some ws => exact key ws hw.1 hw.2
  | none =>
    have hl : (data.map fun _ => (1 : ℝ)).sum = data.length := by simp
    have := key (data.map fun _ => 1) (by simp) (by
      rw [hl]
      exact_mod_cast List.length_pos_iff.2 hw)
    simp only [Option.getD_none, List.map_map] at this ⊢
    exact this

/-- C85. Stretching and shifting the sample stretches the bandwidth in the same way. -/
theorem rule_equivariant (factor a b : ℝ) (ha : 0 < a) (data : List ℝ) (weights : Option (List ℝ)) (hw : Usable data weights) :
    ruleOfThumb factor (data.map fun x => a * x + b) weights = (ruleOfThumb factor data weights).map (a * ·) := by
  simp only [ruleOfThumb, minStdOrIqr, iqr_affine a b ha, std_affine a b ha data weights hw, List.length_map]
  rcases iqr data weights with _ | r
  · rfl
  · simp only [Option.map_some, Option.some.injEq]
    rw [← mul_min_of_nonneg _ _ ha.le]
    ring

theorem zip_scale_sum (c : ℝ) (ws data : List ℝ) (f : ℝ → ℝ) :
    (List.zipWith (fun w x => w * f x) (ws.map (c * ·)) data).sum = c * (List.zipWith (fun w x => w * f x) ws data).sum := by
  induction ws generalizing data with
  | nil => simp
  | cons w ws ih =>
    cases data with
    | nil => simp
    | cons d data =>
      simp only [List.map_cons, List.zipWith_cons_cons, List.sum_cons, ih]
      ring

theorem std_weights_scale (c : ℝ) (hc : 0 < c) (data ws : List ℝ) : stdDev data (some (ws.map (c * ·))) = stdDev data (some ws) := by
  have hs : (ws.map (c * ·)).sum = c * ws.sum := by rw [List.sum_map_mul_left]; simp
  have h1 := zip_scale_sum c ws data id
  simp only [id] at h1
  unfold stdDev
  simp only [Option.getD_some, hs, h1, mul_div_mul_left _ _ hc.ne', zip_scale_sum c ws data (fun x => (x - _) ^ 2)]

/-- C85. A common factor of the weights does not matter. -/
theorem rule_weights_scale (factor c : ℝ) (hc : 0 < c) (data ws : List ℝ) :
    ruleOfThumb factor data (some (ws.map (c * ·))) = ruleOfThumb factor data (some ws) := by
  simp only [ruleOfThumb, minStdOrIqr, iqr_weights_scale c hc, std_weights_scale c hc]

theorem std_perm (data data' : List ℝ) (weights weights' : Option (List ℝ)) (events events' : List (ℝ × ℝ)) (hp : events.Perm events')
    (h1 : data = events.map (·.1)) (h2 : weights.getD (data.map fun _ => 1) = events.map (·.2)) (h3 : data' = events'.map (·.1))
    (h4 : weights'.getD (data'.map fun _ => 1) = events'.map (·.2)) : stdDev data weights = stdDev data' weights' := by
  have hz : ∀ (l : List (ℝ × ℝ)) (f : ℝ → ℝ → ℝ), List.zipWith f (l.map (·.2)) (l.map (·.1)) = l.map fun e => f e.2 e.1 := by
    intro l f
    induction l with
    | nil => rfl
    | cons a l ih => simp [ih]
  unfold stdDev
  simp only [h2, h4]
  rw [h1, h3]
  simp only [hz]
  rw [(hp.map fun e : ℝ × ℝ => e.2 * e.1).sum_eq, (hp.map fun e : ℝ × ℝ => e.2).sum_eq]
  congr 2
  exact (hp.map _).sum_eq

/-- C85. The order of the events does not matter: without weights. -/
theorem rule_order (factor : ℝ) (data data' : List ℝ) (hp : data.Perm data') :
    ruleOfThumb factor data none = ruleOfThumb factor data' none := by
  have hs : data.insertionSort (· ≥ ·) = data'.insertionSort (· ≥ ·) :=
    List.Perm.eq_of_pairwise' (List.pairwise_insertionSort _ _) (List.pairwise_insertionSort _ _)
      (((List.perm_insertionSort _ _).trans hp).trans (List.perm_insertionSort _ _).symm)
  have hi : iqr data none = iqr data' none := by
    simp only [iqr, percentile, hs, hp.length_eq]
  have hst : stdDev data none = stdDev data' none :=
    std_perm data data' none none (data.map fun x => (x, 1)) (data'.map fun x => (x, 1)) (hp.map _) (by simp [Function.comp_def])
      (by simp [Function.comp_def]) (by simp [Function.comp_def]) (by simp [Function.comp_def])
  simp only [ruleOfThumb, minStdOrIqr, hi, hst, hp.length_eq]

/-- C85. The order of the weighted events does not matter as long as no two of them have the same value. Missing from the full claim: the
cases of `rule_documented_violated`, `rule_unit_weights_violated`, `rule_count_violated`, `rule_raises_violated`, `rule_zero_violated`,
`rule_weighted_order_violated`. -/
theorem rule_weighted_order_partial (factor : ℝ) (events events' : List (ℝ × ℝ)) (hp : events.Perm events')
    (hn : (events.map (·.1)).Nodup) :
    ruleOfThumb factor (events.map (·.1)) (some (events.map (·.2))) =
      ruleOfThumb factor (events'.map (·.1)) (some (events'.map (·.2))) := by
  have hz : ∀ l : List (ℝ × ℝ), (l.map (·.1)).zip (l.map (·.2)) = l := by
    intro l
    induction l with
    | nil => rfl
    | cons a l ih => simp [ih]
  have hinj : ∀ e ∈ events, ∀ e' ∈ events, e.1 = e'.1 → e = e' := fun e he e' he' h => List.inj_on_of_nodup_map hn he he' h
  have htot : Std.Total (fun a b : ℝ × ℝ => a.1 ≤ b.1) := ⟨fun a b => le_total a.1 b.1⟩
  have htr : IsTrans (ℝ × ℝ) (fun a b : ℝ × ℝ => a.1 ≤ b.1) := ⟨fun a b c => le_trans⟩
  have hs : events.insertionSort (fun a b => a.1 ≤ b.1) = events'.insertionSort (fun a b => a.1 ≤ b.1) := by
    refine List.Perm.eq_of_pairwise (le := fun a b : ℝ × ℝ => a.1 ≤ b.1) ?_ (List.pairwise_insertionSort _ _) (List.pairwise_insertionSort _ _)
      (((List.perm_insertionSort _ _).trans hp).trans (List.perm_insertionSort _ _).symm)
    intro a b ha hb hab hba
    exact hinj a ((List.perm_insertionSort _ _).mem_iff.1 ha) b (hp.mem_iff.2 ((List.perm_insertionSort _ _).mem_iff.1 hb)) (le_antisymm hab hba)
  have hi : iqr (events.map (·.1)) (some (events.map (·.2))) = iqr (events'.map (·.1)) (some (events'.map (·.2))) := by
    simp only [iqr, hz, weightedQuantile, hs]
  have hst : stdDev (events.map (·.1)) (some (events.map (·.2))) = stdDev (events'.map (·.1)) (some (events'.map (·.2))) :=
    std_perm _ _ _ _ events events' hp rfl rfl rfl rfl
  simp only [ruleOfThumb, minStdOrIqr, hi, hst, List.length_map, hp.length_eq]

theorem roundEven_bounds (r : ℚ) : r - 1 / 2 ≤ roundEven r ∧ (roundEven r : ℚ) ≤ r + 1 / 2 := by
  have h1 := Int.floor_le r
  have h2 := Int.lt_floor_add_one r
  unfold roundEven
  split
  · constructor <;> linarith
  · split
    · push_cast; constructor <;> linarith
    · split
      · constructor <;> linarith
      · push_cast; constructor <;> linarith

/-- The upper quartile has an index not behind the lower one (the list is sorted from the largest down). -/
theorem quartile_indices (n : ℕ) : (roundEven (((n : ℚ) - 1) * (1 - 75 / 100))).toNat ≤ (roundEven (((n : ℚ) - 1) * (1 - 25 / 100))).toNat := by
  obtain ⟨_, h2⟩ := roundEven_bounds (((n : ℚ) - 1) * (1 - 75 / 100))
  obtain ⟨h3, _⟩ := roundEven_bounds (((n : ℚ) - 1) * (1 - 25 / 100))
  rcases n with _ | _ | _ | n
  · decide +kernel
  · decide +kernel
  · decide +kernel
  · have hn : (3 : ℚ) ≤ ((n + 3 : ℕ) : ℚ) := by push_cast; linarith [Nat.cast_nonneg (α := ℚ) n]
    have : (roundEven ((((n + 3 : ℕ) : ℚ) - 1) * (1 - 75 / 100)) : ℚ) ≤ roundEven ((((n + 3 : ℕ) : ℚ) - 1) * (1 - 25 / 100)) := by
      linarith
    apply Int.toNat_le_toNat
    exact_mod_cast this

theorem iqr_nonneg (data : List ℝ) (weights : Option (List ℝ)) (r : ℝ) (h : iqr data weights = some r) : 0 ≤ r := by
  cases weights with
  | none =>
    simp only [iqr, percentile] at h
    have hs : (data.insertionSort (· ≥ ·)).Pairwise (· ≥ ·) := List.pairwise_insertionSort _ _
    have hi := quartile_indices data.length
    rcases hu : (data.insertionSort (· ≥ ·))[(roundEven (((data.length : ℚ) - 1) * (1 - 75 / 100))).toNat]? with _ | u
    · rw [hu] at h; simp at h
    rcases hv : (data.insertionSort (· ≥ ·))[(roundEven (((data.length : ℚ) - 1) * (1 - 25 / 100))).toNat]? with _ | v
    · rw [hu, hv] at h; simp at h
    rw [hu, hv] at h
    simp at h
    subst h
    obtain ⟨lu, rfl⟩ := List.getElem?_eq_some_iff.1 hu
    obtain ⟨lv, rfl⟩ := List.getElem?_eq_some_iff.1 hv
    rw [sub_nonneg]
    rcases hi.lt_or_eq with hlt | heq
    · exact List.pairwise_iff_getElem.1 hs _ _ lu lv hlt
    · simp only [heq]; exact le_refl _
  | some ws =>
    have htot : Std.Total (fun a b : ℝ × ℝ => a.1 ≤ b.1) := ⟨fun a b => le_total a.1 b.1⟩
    have htr : IsTrans (ℝ × ℝ) (fun a b : ℝ × ℝ => a.1 ≤ b.1) := ⟨fun a b c => le_trans⟩
    have hs : ((data.zip ws).insertionSort fun a b => a.1 ≤ b.1).Pairwise fun a b => a.1 ≤ b.1 := List.pairwise_insertionSort _ _
    obtain ⟨l, hl⟩ : ∃ l, l = (data.zip ws).insertionSort fun a b => a.1 ≤ b.1 := ⟨_, rfl⟩
    have mono : ∀ (i j : ℕ) (a b : ℝ × ℝ), i ≤ j → l[i]? = some a → l[j]? = some b → a.1 ≤ b.1 := by
      intro i j a b hij ha hb
      obtain ⟨la, rfl⟩ := List.getElem?_eq_some_iff.1 ha
      obtain ⟨lb, rfl⟩ := List.getElem?_eq_some_iff.1 hb
      rcases hij.lt_or_eq with hlt | heq
      · rw [← hl] at hs
        exact List.pairwise_iff_getElem.1 hs _ _ la lb hlt
      · subst heq; exact le_refl _
    have cnt : ∀ (p : List ℝ) (f g : ℝ → Bool), (∀ x, f x = true → g x = true) → (p.filter f).length ≤ (p.filter g).length := by
      intro p f g hfg
      exact (List.monotone_filter_right p hfg).length_le
    simp only [iqr, weightedQuantile, ← hl] at h
    obtain ⟨p, hp⟩ : ∃ p, p = positions (l.map (·.2)) := ⟨_, rfl⟩
    rw [← hp] at h
    rcases h1 : l[(p.filter fun x => decide (x < 3 / 4)).length]? with _ | a <;> rw [h1] at h
    · simp at h
    rcases h2 : l[(p.filter fun x => decide (x ≤ 3 / 4)).length]? with _ | b <;> rw [h2] at h
    · simp at h
    rcases h3 : l[(p.filter fun x => decide (x < 1 / 4)).length]? with _ | c <;> rw [h3] at h
    · simp at h
    rcases h4 : l[(p.filter fun x => decide (x ≤ 1 / 4)).length]? with _ | d <;> rw [h4] at h
    · simp at h
    simp at h
    have e1 := mono _ _ c a (cnt p _ _ fun x hx => by simp only [decide_eq_true_eq] at hx ⊢; linarith) h3 h1
    have e2 := mono _ _ d b (cnt p _ _ fun x hx => by simp only [decide_eq_true_eq] at hx ⊢; linarith) h4 h2
    linarith

/-- C85. The bandwidth is never negative. -/
theorem rule_nonneg (factor : ℝ) (hf : 0 ≤ factor) (data : List ℝ) (weights : Option (List ℝ)) (h : ℝ)
    (hr : ruleOfThumb factor data weights = some h) : 0 ≤ h := by
  simp only [ruleOfThumb, minStdOrIqr] at hr
  rcases hi : iqr data weights with _ | r
  · rw [hi] at hr; simp at hr
  · rw [hi] at hr
    simp only [Option.map_some, Option.some.injEq] at hr
    rw [← hr]
    have h1 := iqr_nonneg data weights r hi
    have h2 : 0 ≤ min (stdDev data weights) r := le_min (Real.sqrt_nonneg _) h1
    have h3 : (0 : ℝ) ≤ (data.length : ℝ) ^ (-1 / 5 : ℝ) := Real.rpow_nonneg (Nat.cast_nonneg _) _
    exact mul_nonneg (mul_nonneg h2 h3) hf

/-- C85. The factors of the two rules, and what they multiply: the smaller of standard deviation and range between the quartiles (not
divided by 1.34) and the number of events (not of weights) to the power of -1/5. -/
theorem rule_value (data : List ℝ) (weights : Option (List ℝ)) (r : ℝ) (hr : iqr data weights = some r) :
    silverman data weights = some (0.9 * min (stdDev data weights) r * (data.length : ℝ) ^ (-1 / 5 : ℝ)) ∧
    scott data weights = some (1.059 * min (stdDev data weights) r * (data.length : ℝ) ^ (-1 / 5 : ℝ)) ∧
    stdDev data none = Real.sqrt ((data.map fun x => (x - data.sum / data.length) ^ 2).sum / data.length) := by
  refine ⟨?_, ?_, ?_⟩
  · simp only [silverman, ruleOfThumb, minStdOrIqr, hr, Option.map_some]
    congr 1
    norm_num
    ring
  · simp only [scott, ruleOfThumb, minStdOrIqr, hr, Option.map_some]
    congr 1
    norm_num
    ring
  · have h1 : ∀ (l : List ℝ) (f : ℝ → ℝ → ℝ), List.zipWith f (l.map fun _ => 1) l = l.map fun x => f 1 x := by
      intro l f
      induction l with
      | nil => rfl
      | cons a l ih => simp only [List.map_cons, List.zipWith_cons_cons, ih]
    have h2 : ∀ l : List ℝ, (l.map fun _ => (1 : ℝ)).sum = l.length := by intro l; simp
    simp only [stdDev, Option.getD_none, h1, h2, one_mul]
    simp

end Zfit.Kde
