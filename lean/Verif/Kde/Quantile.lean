import Verif.Kde.Binning
import Verif.Kde.RulesViolated

/-! What the quantiles behind the bandwidth rules mean (C85), how the adaptive bandwidths depend on the size of the weights (C86)
and what the method 'simple' does with weights (C84). -/

namespace Zfit.Kde

section percentile

variable {K : Type} [Field K] [LinearOrder K]

theorem roundEven_nonneg (r : ℚ) (h : 0 ≤ r) : 0 ≤ roundEven r := by
  have h0 : 0 ≤ ⌊r⌋ := Int.floor_nonneg.2 h
  unfold roundEven
  split
  · exact h0
  · split
    · omega
    · split <;> omega

theorem roundEven_le (r : ℚ) (m : ℕ) (h : r ≤ m) : roundEven r ≤ m := by
  have h0 : ⌊r⌋ ≤ (m : ℤ) := by
    have h1 := Int.floor_le r
    have h2 : ((⌊r⌋ : ℤ) : ℚ) ≤ ((m : ℤ) : ℚ) := by push_cast; linarith
    exact_mod_cast h2
  rcases h0.lt_or_eq with hlt | heq
  · unfold roundEven
    split
    · exact h0
    · split
      · omega
      · split <;> omega
  · unfold roundEven
    have h1 := Int.floor_le r
    have h2 : r - ⌊r⌋ = 0 := by
      have : ((⌊r⌋ : ℤ) : ℚ) = m := by rw [heq]; simp
      linarith
    rw [h2, if_pos (by norm_num), heq]

theorem sorted_count (l : List K) (hs : l.Pairwise (· ≥ ·)) (k : ℕ) (hk : k < l.length) (v : K) (hv : v = l[k]) :
    k + 1 ≤ (l.filter (fun x => v ≤ x)).length ∧ (l.filter (fun x => v < x)).length ≤ k := by
  constructor
  · have h : (l.take (k + 1)).filter (fun x => decide (v ≤ x)) = l.take (k + 1) := by
      rw [List.filter_eq_self]
      intro x hx
      obtain ⟨i, hi, rfl⟩ := List.getElem_of_mem hx
      rw [List.getElem_take, decide_eq_true_eq, hv]
      rw [List.length_take] at hi
      rcases Nat.lt_or_eq_of_le (Nat.le_of_lt_succ (lt_of_lt_of_le hi (min_le_left _ _))) with h | h
      · exact List.pairwise_iff_getElem.1 hs i k _ hk h
      · simp only [h]; exact le_refl _
    have h2 := (List.take_sublist (k + 1) l).filter (fun x => decide (v ≤ x))
    have h3 := h2.length_le
    rw [h, List.length_take] at h3
    omega
  · have h : (l.drop k).filter (fun x => decide (v < x)) = [] := by
      rw [List.filter_eq_nil_iff]
      intro x hx
      obtain ⟨i, hi, rfl⟩ := List.getElem_of_mem hx
      rw [List.getElem_drop, decide_eq_true_eq, not_lt, hv]
      rw [List.length_drop] at hi
      rcases Nat.eq_zero_or_pos i with h | h
      · subst h; simp
      · exact List.pairwise_iff_getElem.1 hs k (k + i) hk (by omega) (by omega)
    have h2 : l.filter (fun x => decide (v < x)) = (l.take k).filter (fun x => decide (v < x)) := by
      conv_lhs => rw [← List.take_append_drop k l, List.filter_append]
      rw [h, List.append_nil]
    rw [h2]
    refine (List.length_filter_le _ _).trans ?_
    rw [List.length_take]
    exact min_le_left _ _

/-- C85. What the percentile is: of a sample that is not empty it is an element of the sample, at most `k` elements are larger and
more than `k` are not smaller, where `k` is `(n - 1) * (1 - q / 100)` up to rounding. -/
theorem percentile_meaning (q : ℚ) (h0 : 0 ≤ q) (h1 : q ≤ 100) (x : List K) (hx : x ≠ []) :
    ∃ v ∈ x, percentile q x = some v ∧ ∃ k : ℕ, (x.filter (fun y => v < y)).length ≤ k ∧ k < (x.filter (fun y => v ≤ y)).length ∧
      |(k : ℚ) - ((x.length : ℚ) - 1) * (1 - q / 100)| ≤ 1 / 2 := by
  obtain ⟨r, hr⟩ : ∃ r, r = ((x.length : ℚ) - 1) * (1 - q / 100) := ⟨_, rfl⟩
  have hn : 1 ≤ x.length := List.length_pos_iff.2 hx
  have hn' : (1 : ℚ) ≤ x.length := by exact_mod_cast hn
  have hr0 : 0 ≤ r := by
    rw [hr]
    apply mul_nonneg <;> linarith
  have hr1 : r ≤ ((x.length - 1 : ℕ) : ℚ) := by
    rw [hr, Nat.cast_sub hn, Nat.cast_one]
    have h : 1 - q / 100 ≤ 1 := by linarith
    exact mul_le_of_le_one_right (by linarith) h
  have hk0 := roundEven_nonneg r hr0
  have hk1 := roundEven_le r _ hr1
  obtain ⟨k, hk⟩ : ∃ k : ℕ, roundEven r = (k : ℤ) := ⟨(roundEven r).toNat, (Int.toNat_of_nonneg hk0).symm⟩
  have hkl : k < (x.insertionSort (· ≥ ·)).length := by
    rw [List.length_insertionSort]
    rw [hk] at hk1
    have : k ≤ x.length - 1 := by exact_mod_cast hk1
    omega
  obtain ⟨c1, c2⟩ := sorted_count _ (List.pairwise_insertionSort _ _) k hkl _ rfl
  have hp : (x.insertionSort (· ≥ ·)).Perm x := List.perm_insertionSort _ _
  refine ⟨(x.insertionSort (· ≥ ·))[k], hp.mem_iff.1 (List.getElem_mem _), ?_, k, ?_, ?_, ?_⟩
  · unfold percentile
    rw [← hr, hk, Int.toNat_natCast, List.getElem?_eq_getElem]
  · rw [← (hp.filter _).length_eq]
    exact c2
  · rw [← (hp.filter _).length_eq]
    exact c1
  · obtain ⟨b1, b2⟩ := roundEven_bounds r
    rw [hk] at b1 b2
    push_cast at b1 b2
    rw [← hr, abs_le]
    constructor <;> linarith

end percentile

section weighted

variable {K : Type} [Field K] [LinearOrder K] [IsStrictOrderedRing K]

theorem cum_getElem (acc : K) (ws : List K) (i : ℕ) (h : i < ws.length) :
    (cumMinusHalf acc ws)[i]? = some (acc + (ws.take i).sum + 1 / 2 * ws[i]) := by
  induction ws generalizing acc i with
  | nil => simp at h
  | cons w ws ih =>
    cases i with
    | zero =>
      simp only [cumMinusHalf, List.getElem?_cons_zero, List.take_zero, List.sum_nil, List.getElem_cons_zero]
      congr 1
      ring
    | succ i =>
      simp only [cumMinusHalf, List.getElem?_cons_succ, List.take_succ_cons, List.sum_cons, List.getElem_cons_succ]
      rw [ih (acc + w) i (by simpa using h)]
      congr 1
      ring

theorem cum_length (acc : K) (ws : List K) : (cumMinusHalf acc ws).length = ws.length := by
  induction ws generalizing acc with
  | nil => rfl
  | cons w ws ih => simp [cumMinusHalf, ih]

/-- In an ordered list the elements below a bound come first. -/
theorem filter_eq_take (l : List K) (hs : l.Pairwise (· ≤ ·)) (P : K → Bool) (hP : ∀ a b, a ≤ b → P b = true → P a = true) :
    l.filter P = l.take (l.filter P).length := by
  induction l with
  | nil => rfl
  | cons a l ih =>
    rw [List.pairwise_cons] at hs
    by_cases ha : P a = true
    · rw [List.filter_cons_of_pos ha, List.length_cons, List.take_succ_cons, ← ih hs.2]
    · have : (a :: l).filter P = [] := by
        rw [List.filter_eq_nil_iff]
        intro b hb
        rcases List.mem_cons.1 hb with rfl | hb
        · exact ha
        · exact fun h => ha (hP a b (hs.1 b hb) h)
      rw [this]
      simp

theorem filter_index (l : List K) (hs : l.Pairwise (· ≤ ·)) (P : K → Bool) (hP : ∀ a b, a ≤ b → P b = true → P a = true) :
    (∀ i (h : i < l.length), i < (l.filter P).length → P l[i] = true) ∧ ∀ h : (l.filter P).length < l.length, ¬ P l[(l.filter P).length] = true := by
  have ht := filter_eq_take l hs P hP
  constructor
  · intro i h hi
    have hm : l[i] ∈ l.filter P := by
      rw [ht]
      rw [List.mem_iff_getElem]
      refine ⟨i, ?_, ?_⟩
      · rw [List.length_take]; omega
      · rw [List.getElem_take]
    exact (List.mem_filter.1 hm).2
  · intro h hP'
    obtain ⟨k, hk⟩ : ∃ k, k = (l.filter P).length := ⟨_, rfl⟩
    have hall : ∀ x ∈ l.take (k + 1), P x = true := by
      intro x hx
      obtain ⟨i, hi, rfl⟩ := List.getElem_of_mem hx
      rw [List.getElem_take]
      rw [List.length_take] at hi
      refine hP _ _ ?_ hP'
      rcases Nat.lt_or_eq_of_le (Nat.le_of_lt_succ (lt_of_lt_of_le hi (min_le_left _ _))) with h' | h'
      · exact List.pairwise_iff_getElem.1 hs i _ _ h (by omega)
      · simp only [h', hk]; exact le_refl _
    have h2 := ((List.take_sublist (k + 1) l).filter P).length_le
    rw [List.filter_eq_self.2 hall, List.length_take] at h2
    omega

theorem sum_nonneg_of (l : List K) (h : ∀ x ∈ l, 0 ≤ x) : 0 ≤ l.sum := by
  induction l with
  | nil => simp
  | cons a l ih =>
    rw [List.sum_cons]
    exact add_nonneg (h a (by simp)) (ih fun x hx => h x (by simp [hx]))

/-- The positions are ordered, if no weight is negative. -/
theorem positions_ordered (ws : List K) (hw : ∀ w ∈ ws, 0 ≤ w) : (positions ws).Pairwise (· ≤ ·) := by
  have key : ∀ (ws : List K) (acc : K), (∀ w ∈ ws, 0 ≤ w) → (cumMinusHalf acc ws).Pairwise (· ≤ ·) ∧ ∀ x ∈ cumMinusHalf acc ws, acc ≤ x := by
    intro ws
    induction ws with
    | nil => intro acc _; simp [cumMinusHalf]
    | cons w ws ih =>
      intro acc h
      have hw : 0 ≤ w := h w (by simp)
      obtain ⟨i1, i2⟩ := ih (acc + w) fun x hx => h x (by simp [hx])
      refine ⟨List.pairwise_cons.2 ⟨fun x hx => ?_, i1⟩, ?_⟩
      · have := i2 x hx; linarith
      · intro x hx
        simp only [cumMinusHalf, List.mem_cons] at hx
        rcases hx with rfl | hx
        · linarith
        · have := i2 x hx; linarith
  unfold positions
  rw [List.pairwise_map]
  exact (key ws 0 hw).1.imp fun h => div_le_div_of_nonneg_right h (sum_nonneg_of ws hw)

/-- C85. What the weighted quantile is: events that are not above it have at least the fraction `q` of the weight, and those below
it at most that fraction and half the largest weight. -/
theorem weighted_quantile_meaning (q : K) (hq : 0 ≤ q) (events : List (K × K)) (m : K) (hw : ∀ e ∈ events, 0 < e.2 ∧ e.2 ≤ m) (v : K)
    (h : weightedQuantile q events = some v) :
    q * (events.map (·.2)).sum ≤ ((events.filter (fun e => e.1 ≤ v)).map (·.2)).sum ∧
    ((events.filter (fun e => e.1 < v)).map (·.2)).sum ≤ q * (events.map (·.2)).sum + m / 2 := by
  have htot : Std.Total (fun a b : K × K => a.1 ≤ b.1) := ⟨fun a b => le_total a.1 b.1⟩
  have htr : IsTrans (K × K) (fun a b : K × K => a.1 ≤ b.1) := ⟨fun a b c => le_trans⟩
  obtain ⟨l, hl⟩ : ∃ l, l = events.insertionSort fun a b => a.1 ≤ b.1 := ⟨_, rfl⟩
  have hs : l.Pairwise fun a b => a.1 ≤ b.1 := by rw [hl]; exact List.pairwise_insertionSort _ _
  have hp : l.Perm events := by rw [hl]; exact List.perm_insertionSort _ _
  have hwl : ∀ e ∈ l, 0 < e.2 ∧ e.2 ≤ m := fun e he => hw e (hp.mem_iff.1 he)
  have hws : ∀ w ∈ l.map (·.2), 0 ≤ w := by
    intro w h
    obtain ⟨e, he, rfl⟩ := List.mem_map.1 h
    exact (hwl e he).1.le
  have hsum : (events.map (·.2)).sum = (l.map (·.2)).sum := ((hp.map _).sum_eq).symm
  have hfs : ∀ P : K × K → Bool, ((events.filter P).map (·.2)).sum = ((l.filter P).map (·.2)).sum :=
    fun P => (((hp.filter P).map _).sum_eq).symm
  rw [hsum, hfs, hfs]
  simp only [weightedQuantile, ← hl] at h
  obtain ⟨W, hW⟩ : ∃ W, W = (l.map (·.2)).sum := ⟨_, rfl⟩
  obtain ⟨p, hpp⟩ : ∃ p, p = positions (l.map (·.2)) := ⟨_, rfl⟩
  have hord : p.Pairwise (· ≤ ·) := by rw [hpp]; exact positions_ordered _ hws
  have hplen : p.length = l.length := by rw [hpp, positions, List.length_map, cum_length, List.length_map]
  have hpget : ∀ i (hi : i < p.length) (hi' : i < l.length), p[i] = (((l.take i).map (·.2)).sum + 1 / 2 * l[i].2) / W := by
    intro i hi hi'
    have h1 : p[i]? = some ((((l.take i).map (·.2)).sum + 1 / 2 * l[i].2) / W) := by
      rw [hpp, positions, List.getElem?_map, cum_getElem 0 _ i (by simpa using hi')]
      simp only [Option.map_some, zero_add, List.getElem_map, List.map_take, hW]
    rw [List.getElem?_eq_getElem hi] at h1
    exact Option.some.inj h1
  rw [← hpp] at h
  obtain ⟨i, hi⟩ : ∃ i, i = (p.filter fun x => decide (x < q)).length := ⟨_, rfl⟩
  obtain ⟨j, hj⟩ : ∃ j, j = (p.filter fun x => decide (x ≤ q)).length := ⟨_, rfl⟩
  obtain ⟨f1, f2⟩ := filter_index p hord (fun x => decide (x < q)) (fun a b hab hb => by
    rw [decide_eq_true_eq] at hb ⊢; exact lt_of_le_of_lt hab hb)
  obtain ⟨g1, g2⟩ := filter_index p hord (fun x => decide (x ≤ q)) (fun a b hab hb => by
    rw [decide_eq_true_eq] at hb ⊢; exact le_trans hab hb)
  rw [← hi] at f1 f2 h
  rw [← hj] at g1 g2 h
  rcases ha : l[i]? with _ | a <;> rw [ha] at h
  · simp at h
  rcases hb : l[j]? with _ | b <;> rw [hb] at h
  · simp at h
  simp only [Option.some.injEq] at h
  obtain ⟨hil, rfl⟩ := List.getElem?_eq_some_iff.1 ha
  obtain ⟨hjl, rfl⟩ := List.getElem?_eq_some_iff.1 hb
  have hij : i ≤ j := by
    rw [hi, hj]
    exact (List.monotone_filter_right p fun x hx => by
      simp only [decide_eq_true_eq] at hx ⊢; exact hx.le).length_le
  have hab : l[i].1 ≤ l[j].1 := by
    rcases hij.lt_or_eq with hlt | heq
    · exact List.pairwise_iff_getElem.1 hs _ _ hil hjl hlt
    · simp only [heq]; exact le_refl _
  have hav : l[i].1 ≤ v := by linarith
  have hvb : v ≤ l[j].1 := by linarith
  have hWpos : 0 < W := by
    rw [hW]
    have h1 : l[i].2 ≤ (l.map (·.2)).sum := List.single_le_sum hws _ (List.mem_map.2 ⟨_, List.getElem_mem hil, rfl⟩)
    exact lt_of_lt_of_le (hwl _ (List.getElem_mem hil)).1 h1
  rw [← hW]
  constructor
  · have h1 := f2 (by rw [hplen]; exact hil)
    rw [decide_eq_true_eq, not_lt, hpget i (by rw [hplen]; exact hil) hil, le_div_iff₀ hWpos] at h1
    have h2 : ((l.take (i + 1)).map (·.2)).sum = ((l.take i).map (·.2)).sum + l[i].2 := by
      rw [List.take_add_one, List.getElem?_eq_getElem hil]
      simp only [List.map_append, List.sum_append, Option.toList_some, List.map_cons, List.map_nil, List.sum_singleton]
    have h3 : ((l.take (i + 1)).map (·.2)).sum ≤ ((l.filter fun e => decide (e.1 ≤ v)).map (·.2)).sum := by
      have hall : (l.take (i + 1)).filter (fun e => decide (e.1 ≤ v)) = l.take (i + 1) := by
        rw [List.filter_eq_self]
        intro x hx
        obtain ⟨k, hk, rfl⟩ := List.getElem_of_mem hx
        rw [List.getElem_take, decide_eq_true_eq]
        rw [List.length_take] at hk
        refine le_trans ?_ hav
        rcases Nat.lt_or_eq_of_le (Nat.le_of_lt_succ (lt_of_lt_of_le hk (min_le_left _ _))) with h' | h'
        · exact List.pairwise_iff_getElem.1 hs k i _ hil h'
        · simp only [h']; exact le_refl _
      conv_rhs => rw [← List.take_append_drop (i + 1) l, List.filter_append, List.map_append, List.sum_append, hall]
      refine le_add_of_nonneg_right (sum_nonneg_of _ ?_)
      intro w hw'
      obtain ⟨e, he, rfl⟩ := List.mem_map.1 hw'
      exact (hwl e (List.mem_of_mem_drop (List.mem_filter.1 he).1)).1.le
    have h4 := (hwl _ (List.getElem_mem hil)).1
    linarith
  · have h3 : ((l.filter fun e => decide (e.1 < v)).map (·.2)).sum ≤ ((l.take j).map (·.2)).sum := by
      have hnil : (l.drop j).filter (fun e => decide (e.1 < v)) = [] := by
        rw [List.filter_eq_nil_iff]
        intro x hx
        obtain ⟨k, hk, rfl⟩ := List.getElem_of_mem hx
        rw [List.getElem_drop, decide_eq_true_eq, not_lt]
        rw [List.length_drop] at hk
        refine le_trans hvb ?_
        rcases Nat.eq_zero_or_pos k with h' | h'
        · subst h'; simp
        · exact List.pairwise_iff_getElem.1 hs j (j + k) hjl (by omega) (by omega)
      conv_lhs => rw [← List.take_append_drop j l, List.filter_append, hnil, List.append_nil]
      have hsub : ((l.take j).filter fun e => decide (e.1 < v)).Sublist (l.take j) := List.filter_sublist
      refine List.Sublist.sum_le_sum (hsub.map _) ?_
      intro w hw'
      obtain ⟨e, he, rfl⟩ := List.mem_map.1 hw'
      exact (hwl e (List.mem_of_mem_take he)).1.le
    have hm : 0 ≤ m := ((hwl _ (List.getElem_mem hil)).1.le).trans (hwl _ (List.getElem_mem hil)).2
    rcases Nat.eq_zero_or_pos j with hj0 | hj0
    · rw [hj0] at h3
      simp only [List.take_zero, List.map_nil, List.sum_nil] at h3
      have := mul_nonneg hq hWpos.le
      linarith
    · obtain ⟨k, rfl⟩ : ∃ k, j = k + 1 := ⟨j - 1, by omega⟩
      have hkl : k < l.length := by omega
      have h1 := g1 k (by rw [hplen]; exact hkl) (Nat.lt_succ_self k)
      rw [decide_eq_true_eq, hpget k (by rw [hplen]; exact hkl) hkl, div_le_iff₀ hWpos] at h1
      have h2 : ((l.take (k + 1)).map (·.2)).sum = ((l.take k).map (·.2)).sum + l[k].2 := by
        rw [List.take_add_one, List.getElem?_eq_getElem hkl]
        simp only [List.map_append, List.sum_append, Option.toList_some, List.map_cons, List.map_nil, List.sum_singleton]
      have h4 := (hwl _ (List.getElem_mem hkl)).2
      linarith

/-- The hypotheses are met, and the middle of two events is taken if the quantile falls on the position of an event: of the
events 0, 2, 4 with weights 1, 2, 1 the quantile 1/2 is at the event 2 and the one after it. -/
example : (∀ e ∈ [((0 : ℚ), (1 : ℚ)), (2, 2), (4, 1)], 0 < e.2 ∧ e.2 ≤ 2) ∧ weightedQuantile (1 / 2 : ℚ) [(0, 1), (2, 2), (4, 1)] = some 3 := by
  decide +kernel

end weighted

/-! ## The size of the weights -/

theorem eventCount_scale (c : ℝ) (data ws : List ℝ) : eventCount data (some (ws.map (c * ·))) = c * eventCount data (some ws) := by
  simp only [eventCount]
  rw [List.sum_map_mul_left]
  simp

/-- C86. A common factor of the weights counts as that many more events: the bandwidths of `geom` and `std` become smaller by its
fifth root, those of `zfit` stay as they are. -/
theorem adaptive_weights_scale (c : ℝ) (hc : 0 < c) (data ws : List ℝ) (hw : 0 ≤ ws.sum) (func : ℝ → ℝ) :
    adaptiveGeom data func (some (ws.map (c * ·))) =
      (adaptiveGeom data func (some ws)).map (List.map fun h => c ^ (-1 / 5 : ℝ) * h) ∧
    adaptiveStd data func (some (ws.map (c * ·))) =
      (adaptiveStd data func (some ws)).map (List.map fun h => c ^ (-1 / 5 : ℝ) * h) ∧
    adaptiveZfit data func (some (ws.map (c * ·))) = adaptiveZfit data func (some ws) := by
  have hm : minStdOrIqr data (some (ws.map (c * ·))) = minStdOrIqr data (some ws) := by
    unfold minStdOrIqr
    rw [iqr_weights_scale c hc, std_weights_scale c hc]
  have hg : ∀ p : List ℝ, geometricMean p (some (ws.map (c * ·))) = geometricMean p (some ws) := by
    intro p
    have h1 : (ws.map (c * ·)).sum = c * ws.sum := by rw [List.sum_map_mul_left]; simp
    have h2 : ∀ ws : List ℝ, (List.zipWith (fun w p => w * Real.log p) (ws.map (c * ·)) p).sum = c * (List.zipWith (fun w p => w * Real.log p) ws p).sum := by
      intro ws
      induction ws generalizing p with
      | nil => simp
      | cons w ws ih =>
        cases p with
        | nil => simp
        | cons d p =>
          simp only [List.map_cons, List.zipWith_cons_cons, List.sum_cons]
          rw [ih]
          ring
    unfold geometricMean
    simp only [Option.getD_some]
    rw [h1, h2, mul_div_mul_left _ _ hc.ne']
  have he : eventCount data (some (ws.map (c * ·))) ^ (-1 / 5 : ℝ) = c ^ (-1 / 5 : ℝ) * eventCount data (some ws) ^ (-1 / 5 : ℝ) := by
    rw [eventCount_scale, Real.mul_rpow hc.le (by exact hw)]
  refine ⟨?_, ?_, ?_⟩
  · unfold adaptiveGeom
    rw [hm, he, Option.map_map]
    congr 1
    funext m
    simp only [Function.comp, List.map_map]
    apply List.map_congr_left
    intro p _
    simp only [Function.comp, hg]
    ring
  · unfold adaptiveStd
    rw [hm, he, Option.map_map]
    congr 1
    funext m
    simp only [Function.comp, List.map_map]
    apply List.map_congr_left
    intro p _
    simp only [Function.comp]
    ring
  · unfold adaptiveZfit
    rw [scott, rule_weights_scale _ c hc]

/-! ## The method 'simple' with weights -/

section simple

variable {K : Type} [Field K] [LinearOrder K] [IsStrictOrderedRing K] [FloorRing K]

/-- The share of the next grid point with the method 'simple': none if the event is in the first half. -/
def share (f : K) : K := if f > 1 / 2 then f else 0

/-- What an event gives to the grid point `j`, if it is at the place `t` and has the weight `w`. -/
def simpleShare (t w : K) (j : ℕ) : K :=
  (if ⌊t⌋ = ((j - 1 : ℕ) : ℤ) then share (t - (⌊t⌋ : K)) * w else 0) + if ⌊t⌋ = (j : ℤ) then (1 - share (t - (⌊t⌋ : K))) * w else 0

/-- C84, what the method 'simple' does with weights: like linear binning each event is shared between two grid points according to
its distance, but only if it is in the second half between them. -/
theorem simple_weighted_shares (events : List (K × K)) (gmin gmax : K) (n j : ℕ) (hj : j ≠ 0) :
    bin1d .simple (events.map (·.1)) gmin gmax n (some (events.map (·.2))) j =
    (events.map fun e => simpleShare (place gmin gmax n e.1) (e.2 / (events.map (·.2)).sum) j).sum := by
  obtain ⟨W, hW⟩ : ∃ W, W = (events.map (·.2)).sum := ⟨_, rfl⟩
  simp only [bin1d, binSimple, binWeighted, Option.getD_some, ← hW, List.map_map]
  rw [zipWith_maps, zipWith_maps]
  unfold bincount
  simp only [if_neg hj]
  rw [zipWith_maps, zipWith_maps, ← List.sum_map_add]
  congr 1
  apply List.map_congr_left
  intro e _
  simp only [Function.comp, place, simpleShare, share]
  congr 1
  by_cases h : ⌊(e.1 - gmin) / ((gmax - gmin) / ((n : K) - 1))⌋ = (j : ℤ)
  · refine Eq.trans (if_pos h) (Eq.trans ?_ (if_pos h).symm)
    ring_nf
  · exact Eq.trans (if_neg h) (if_neg h).symm

/-- The hypotheses are met: with the weights 1 and 3, the second event, at 1.6, is shared by the points 1 and 2 of the grid 0, 1, 2,
3; an event at 1.4 is given to the point 1 alone. -/
example : bin1d .simple [(0 : ℚ), 8 / 5] 0 3 4 (some [1, 3]) 2 = 9 / 20 ∧ bin1d .simple [(0 : ℚ), 7 / 5] 0 3 4 (some [1, 3]) 2 = 0 := by
  decide +kernel

end simple

end Zfit.Kde
