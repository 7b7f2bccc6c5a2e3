import Verif.Functor.ProductModel
import Verif.Data.DataLemmas
import Mathlib.Algebra.BigOperators.Group.List.Basic
import Mathlib.MeasureTheory.Measure.Lebesgue.Basic

namespace Zfit.Functor

open Zfit Zfit.Dat

variable {R V : Type}

/-! ### C26: observables -/

theorem mem_add_obs (os acc : List String) (o : String) :
    o ∈ os.foldl (fun acc o => if o ∈ acc then acc else acc ++ [o]) acc ↔ o ∈ acc ∨ o ∈ os := by
  induction os generalizing acc with
  | nil => simp
  | cons a os ih =>
    simp only [List.foldl_cons, ih, List.mem_cons]
    split
    · rename_i h
      constructor
      · rintro (h | h) <;> tauto
      · rintro (h' | rfl | h') <;> tauto
    · simp only [List.mem_append, List.mem_singleton]
      tauto

theorem nodup_add_obs (os acc : List String) (h : acc.Nodup) :
    (os.foldl (fun acc o => if o ∈ acc then acc else acc ++ [o]) acc).Nodup := by
  induction os generalizing acc with
  | nil => exact h
  | cons a os ih =>
    simp only [List.foldl_cons]
    apply ih
    split
    · exact h
    · rename_i hn
      rw [List.nodup_append]
      refine ⟨h, by simp, ?_⟩
      intro x hx y hy
      simp only [List.mem_singleton] at hy
      subst hy
      rintro rfl
      exact hn hx

theorem prefix_add_obs (os acc : List String) :
    acc <+: os.foldl (fun acc o => if o ∈ acc then acc else acc ++ [o]) acc := by
  induction os generalizing acc with
  | nil => exact List.prefix_refl _
  | cons a os ih =>
    simp only [List.foldl_cons]
    refine List.IsPrefix.trans ?_ (ih _)
    split
    · exact List.prefix_refl _
    · exact List.prefix_append _ _

/-- the observables are added in the order in which they first appear -/
theorem commonObs_eq (obss : List (List String)) :
    commonObs obss = obss.flatten.foldl (fun acc o => if o ∈ acc then acc else acc ++ [o]) [] := by
  unfold commonObs
  rw [List.foldl_flatten]

theorem firstSeen (os acc : List String) (hacc : acc.Nodup) :
    os.foldl (fun acc o => if o ∈ acc then acc else acc ++ [o]) acc =
      acc ++ (os.foldl (fun acc o => if o ∈ acc then acc else acc ++ [o]) []).filter (fun o => decide (o ∉ acc)) := by
  induction os using List.reverseRecOn with
  | nil => simp
  | append_singleton os a ih =>
    simp only [List.foldl_append, List.foldl_cons, List.foldl_nil]
    rw [ih]
    by_cases h1 : a ∈ os.foldl (fun acc o => if o ∈ acc then acc else acc ++ [o]) []
    · have h1' : a ∈ os := by simpa using (mem_add_obs os [] a).1 h1
      have : a ∈ acc ++ (os.foldl (fun acc o => if o ∈ acc then acc else acc ++ [o]) []).filter
          (fun o => decide (o ∉ acc)) := by
        rw [← ih, mem_add_obs]
        exact .inr h1'
      rw [if_pos this, if_pos h1]
    · rw [if_neg h1]
      have h1' : a ∉ os := by simpa using (mem_add_obs os [] a).not.1 h1
      by_cases h2 : a ∈ acc
      · rw [if_pos (by simp [h2])]
        simp [List.filter_append, h2]
      · rw [if_neg]
        · simp [List.filter_append, h2]
        · rw [← ih, mem_add_obs]
          tauto

/-- C26: the observables of a product are those of the first factor followed by those of the product of the others
that are not among them: the ordered union. -/
theorem product_obs_ordered_union (f : Factor R V) (fs : List (Factor R V)) (hf : f.obs.Nodup) :
    productObs ([] : List (Factor R V)) = [] ∧
    productObs (f :: fs) = f.obs ++ (productObs fs).filter (fun o => decide (o ∉ f.obs)) := by
  refine ⟨rfl, ?_⟩
  unfold productObs
  rw [commonObs_eq, commonObs_eq]
  simp only [List.map_cons, List.flatten_cons, List.foldl_append]
  have h1 : f.obs.foldl (fun acc o => if o ∈ acc then acc else acc ++ [o]) [] = f.obs := by
    have : ∀ (os acc : List String), (acc ++ os).Nodup →
        os.foldl (fun acc o => if o ∈ acc then acc else acc ++ [o]) acc = acc ++ os := by
      intro os
      induction os with
      | nil => simp
      | cons a os ih =>
        intro acc h
        simp only [List.foldl_cons]
        have ha : a ∉ acc := by
          rw [List.nodup_append] at h
          intro hc
          exact h.2.2 a hc a (by simp) rfl
        rw [if_neg ha, ih _ (by simpa using h)]
        simp
    simpa using this f.obs [] (by simpa using hf)
  rw [h1, firstSeen _ _ hf]

theorem mem_productObs (fs : List (Factor R V)) (o : String) : o ∈ productObs fs ↔ ∃ f ∈ fs, o ∈ f.obs := by
  unfold productObs
  rw [commonObs_eq, mem_add_obs]
  simp

theorem productObs_nodup (fs : List (Factor R V)) : (productObs fs).Nodup := by
  unfold productObs
  rw [commonObs_eq]
  exact nodup_add_obs _ _ List.nodup_nil

/-! ### C26: evaluation -/

theorem withObs_ok {d : Data} {pts : List (String → Rat)} {w : Option (List Rat)} (h : Inv d pts w)
    (hin : ∀ p ∈ pts, d.space.contains p = true) {l : List String} (hn : l.Nodup) (hne : l ≠ [])
    (hl : ∀ o ∈ l, o ∈ d.space.obs) :
    ∃ d', d.withObs l = .ok d' ∧ Inv d' pts w ∧ d'.space.obs = l ∧ ∀ p ∈ pts, d'.space.contains p = true := by
  obtain ⟨s', hs', ho⟩ := withObs_all hne hl
  obtain ⟨hp, -, hc⟩ := withObs_space h.1 hn hs'
  obtain ⟨ds, h1, h2, -⟩ := h.select hne hl
  rw [← ho] at h1 h2
  obtain ⟨d2, h5, h6, h7⟩ := make_inside hp h2 h.2.2.2 (fun p hh => hc p (hin p hh))
  refine ⟨d2, ?_, h7, by rw [h6, ho], fun p hh => by rw [h6]; exact hc p (hin p hh)⟩
  unfold Data.withObs
  rw [hs', except_bind_ok]
  obtain ⟨idx, h8, h9⟩ := bind_eq_ok.1 h1
  rw [h8, except_bind_ok, h9, except_bind_ok, h.2.2.1]
  exact h5

theorem factor_eval {d : Data} {pts : List (String → Rat)} {w : Option (List Rat)} (h : Inv d pts w)
    (hin : ∀ p ∈ pts, d.space.contains p = true) {f : Factor Rat V} (hn : f.obs.Nodup) (hne : f.obs ≠ [])
    (hl : ∀ o ∈ f.obs, o ∈ d.space.obs) : f.eval d = .ok (pts.map (fun p => f.val (f.obs.map p))) := by
  obtain ⟨d', h1, h2, h3, -⟩ := withObs_ok h hin hn hne hl
  obtain ⟨d2, h4, -⟩ := h2.value none (by intro x hx; cases hx)
  unfold Factor.eval
  rw [h1, except_bind_ok, h4, except_bind_ok]
  simp only [Option.getD_none, h3, table, List.map_map, except_pure]
  rfl

theorem foldl_zipWith {V : Type} [Monoid V] {α : Type} (pts : List α) (gs : List (α → V)) (g : α → V) :
    (gs.map (fun g => pts.map g)).foldl (List.zipWith (· * ·)) (pts.map g) =
      pts.map (fun p => g p * (gs.map (· p)).prod) := by
  induction gs generalizing g with
  | nil => simp
  | cons a gs ih =>
    simp only [List.map_cons, List.foldl_cons]
    have : List.zipWith (· * ·) (pts.map g) (pts.map a) = pts.map (fun p => g p * a p) := by
      rw [List.zipWith_map, List.zipWith_self]
    rw [this, ih]
    simp [mul_assoc]

/-- C26: `pdf(x, norm=False)` of a product is for every event the product of the factors, each evaluated at the event's values of its own
observables in its own order, whatever the order of the observables in the data (which may contain further ones). -/
theorem product_value [Monoid V] (fs : List (Factor Rat V)) (hne : fs ≠ [])
    (hf : ∀ f ∈ fs, f.obs.Nodup ∧ f.obs ≠ []) (s : DSpace) (hs : s.Proper) (hsub : ∀ f ∈ fs, ∀ o ∈ f.obs, o ∈ s.obs)
    (pts : List (String → Rat)) (w : Option (List Rat)) (hw : Weighted pts w) :
    ∃ d, Data.fromTensor s ⟨s.obs.length, table s.obs pts⟩ w false = .ok d ∧
      productEval fs d = .ok ((pts.filter s.contains).map (fun p => (fs.map (fun f => f.val (f.obs.map p))).prod)) := by
  obtain ⟨t, m, h1, h2⟩ := holds_fromTensor s.obs pts
  obtain ⟨d, h3, h4, h5, -⟩ := make_tensor_inv hs h2 hw
  refine ⟨d, by simp [Data.fromTensor, h1, h3], ?_⟩
  have hin : ∀ p ∈ pts.filter s.contains, d.space.contains p = true := by
    intro p hp
    rw [h4]
    exact (List.mem_filter.1 hp).2
  obtain ⟨f, fs', rfl⟩ := List.exists_cons_of_ne_nil hne
  have hone : productObs (f :: fs') ≠ [] := by
    obtain ⟨o, os, ho⟩ := List.exists_cons_of_ne_nil (hf f (by simp)).2
    intro hc
    have : o ∈ productObs (f :: fs') := (mem_productObs _ _).2 ⟨f, by simp, by simp [ho]⟩
    rw [hc] at this
    simp at this
  obtain ⟨d', h6, h7, h8, h9⟩ := withObs_ok h5 hin (productObs_nodup (f :: fs')) hone (by
    intro o ho
    obtain ⟨g, hg, hgo⟩ := (mem_productObs _ _).1 ho
    rw [h4]
    exact hsub g hg o hgo)
  unfold productEval
  rw [h6, except_bind_ok]
  rw [mapM_ok_of_forall (g := fun g => (pts.filter s.contains).map (fun p => g.val (g.obs.map p)))]
  · rw [except_bind_ok]
    simp only [List.map_cons, reduceMul]
    have := foldl_zipWith (pts.filter s.contains) (fs'.map (fun g p => g.val (g.obs.map p)))
      (fun p => f.val (f.obs.map p))
    rw [List.map_map] at this
    simp only [Function.comp_def] at this
    rw [this]
    simp [Function.comp_def]
  · intro g hg
    exact factor_eval h7 h9 (hf g hg).1 (hf g hg).2 (by
      intro o ho
      rw [h8]
      exact (mem_productObs _ _).2 ⟨g, hg, ho⟩)

/-- a factor in `y, x` and one in `x`, data in `z, x, y` -/
example : (do
    let d ← Data.fromTensor ⟨["z", "x", "y"], none⟩ ⟨3, [[9, 2, 5], [9, 3, 7]]⟩ none false
    productEval [⟨["y", "x"], fun r => r.getD 0 0 + 10 * r.getD 1 0⟩, ⟨["x"], fun r => r.getD 0 0⟩] d)
    = .ok [50, 111] := by decide +kernel

/-! ### C26: groups and integrals -/

theorem mem_sharedObs (fs : List (Factor R V)) (o : String) :
    o ∈ sharedObs fs ↔ 1 < (fs.flatMap (·.obs)).count o := by
  unfold sharedObs
  rw [List.mem_filter]
  simp only [decide_eq_true_eq, and_iff_right_iff_imp]
  intro h
  exact List.count_pos_iff.1 (by omega)

theorem isDisjoint_iff (f : Factor R V) (l : List String) : f.isDisjoint l = true ↔ ∀ o ∈ f.obs, o ∉ l := by
  simp [Factor.isDisjoint]

/-- two positions in the list with a common observable: it is shared -/
theorem shared_of_two (fs : List (Factor R V)) {i j : Nat} (hij : i < j) (hj : j < fs.length) {o : String}
    (h1 : o ∈ (fs[i]'(by omega)).obs) (h2 : o ∈ fs[j].obs) : o ∈ sharedObs fs := by
  rw [mem_sharedObs]
  have hsplit : fs = fs.take j ++ fs[j] :: fs.drop (j + 1) := by
    rw [List.getElem_cons_drop, List.take_append_drop]
  have hc : (fs.flatMap (·.obs)).count o =
      ((fs.take j).flatMap (·.obs)).count o + (fs[j].obs.count o + ((fs.drop (j + 1)).flatMap (·.obs)).count o) := by
    have := congrArg (fun l : List (Factor R V) => (l.flatMap (·.obs)).count o) hsplit
    simp only [List.flatMap_append, List.flatMap_cons, List.count_append] at this
    exact this
  have ha : 0 < ((fs.take j).flatMap (·.obs)).count o := by
    apply List.count_pos_iff.2
    rw [List.mem_flatMap]
    refine ⟨fs[i]'(by omega), ?_, h1⟩
    rw [List.mem_take_iff_getElem]
    exact ⟨i, by omega, rfl⟩
  have hb : 0 < fs[j].obs.count o := List.count_pos_iff.2 h2
  omega

/-- The observables of a group. -/
def groupObs (g : List (Factor R V)) : List String := g.flatMap (·.obs)

/-- C26: if an optimisation is made, every factor is in exactly one group, and no observable is in two groups. -/
theorem groups_partition (fs : List (Factor R V)) (gs : List (List (Factor R V))) (h : groups fs = some gs) :
    gs.flatten.Perm fs ∧ gs ≠ [] ∧ (∀ g ∈ gs, g ≠ []) ∧
    gs.Pairwise (fun a b => ∀ o ∈ groupObs a, o ∉ groupObs b) := by
  have hperm : (fs.filter (·.isDisjoint (sharedObs fs)) ++ fs.filter (fun f => !f.isDisjoint (sharedObs fs))).Perm fs :=
    List.filter_append_perm _ fs
  have hflat : ∀ l : List (Factor R V), (l.map (fun f => [f])).flatten = l := by
    intro l; induction l with
    | nil => rfl
    | cons a l ih => simp [ih]
  have hdisj : (fs.filter (·.isDisjoint (sharedObs fs))).Pairwise (fun a b => ∀ o ∈ a.obs, o ∉ b.obs) := by
    have hp : fs.Pairwise (fun a b => a.isDisjoint (sharedObs fs) = true → b.isDisjoint (sharedObs fs) = true →
        ∀ o ∈ a.obs, o ∉ b.obs) := by
      rw [List.pairwise_iff_getElem]
      intro i j hi hj hij h1 _ o ho1 ho2
      exact (isDisjoint_iff _ _).1 h1 o ho1 (shared_of_two fs hij hj ho1 ho2)
    rw [List.pairwise_filter]
    exact hp
  have hdisj' : ((fs.filter (·.isDisjoint (sharedObs fs))).map (fun f => [f])).Pairwise
      (fun a b => ∀ o ∈ groupObs a, o ∉ groupObs b) := by
    rw [List.pairwise_map]
    refine hdisj.imp ?_
    intro a b hab o
    simpa [groupObs] using hab o
  unfold groups at h
  simp only at h
  split at h
  · rename_i hc
    cases h
    simp only [Bool.and_eq_true, Bool.not_eq_true', List.isEmpty_eq_false_iff] at hc
    refine ⟨?_, by simp, ?_, ?_⟩
    · rw [List.flatten_append, hflat]
      simpa using hperm
    · intro g hg
      rw [List.mem_append] at hg
      rcases hg with hg | hg
      · obtain ⟨f, _, rfl⟩ := List.mem_map.1 hg
        simp
      · rw [List.mem_singleton.1 hg]
        exact hc.1
    · rw [List.pairwise_append]
      refine ⟨hdisj', by simp, ?_⟩
      intro a ha b hb o hoa hob
      obtain ⟨f, hf, rfl⟩ := List.mem_map.1 ha
      rw [List.mem_singleton.1 hb] at hob
      simp only [groupObs, List.flatMap_cons, List.flatMap_nil, List.append_nil] at hoa
      obtain ⟨g, hg, hog⟩ := List.mem_flatMap.1 hob
      obtain ⟨hf1, hf2⟩ := List.mem_filter.1 hf
      obtain ⟨hg1, hg2⟩ := List.mem_filter.1 hg
      obtain ⟨i, hi, rfl⟩ := List.getElem_of_mem hf1
      obtain ⟨j, hj, rfl⟩ := List.getElem_of_mem hg1
      rcases Nat.lt_trichotomy i j with hij | rfl | hij
      · exact (isDisjoint_iff _ _).1 hf2 o hoa (shared_of_two fs hij hj hoa hog)
      · rw [hf2] at hg2; cases hg2
      · exact (isDisjoint_iff _ _).1 hf2 o hoa (shared_of_two fs hij hi hog hoa)
  · rename_i hc
    split at h
    · rename_i hd
      cases h
      have hs : (fs.filter (fun f => !f.isDisjoint (sharedObs fs))) = [] := by
        simp only [Bool.and_eq_true, hd, and_true, Bool.not_eq_true'] at hc
        simpa using hc
      rw [hs, List.append_nil] at hperm
      refine ⟨by rw [hflat]; exact hperm, ?_, ?_, hdisj'⟩
      · intro h0
        rw [List.map_eq_nil_iff] at h0
        simp [h0] at hd
      · intro g hg
        obtain ⟨f, _, rfl⟩ := List.mem_map.1 hg
        simp
    · cases h

open MeasureTheory ENNReal

/-- The density of a group of factors at a point. -/
noncomputable def groupVal (g : List (Factor ℝ ℝ≥0∞)) (p : String → ℝ) : ℝ≥0∞ :=
  (g.map (fun f => f.val (f.obs.map p))).prod

/-- The integral of a group of factors over the box, in all the observables of the group. -/
noncomputable def groupInt (box : String → ℝ × ℝ) (g : List (Factor ℝ ℝ≥0∞)) : ℝ≥0∞ :=
  (∫⋯∫⁻_(groupObs g).toFinset, groupVal g ∂(fun o => volume.restrict (Set.Icc (box o).1 (box o).2))) (fun _ => 0)

theorem groupVal_depends (g : List (Factor ℝ ℝ≥0∞)) {p q : String → ℝ} (h : ∀ o ∈ groupObs g, p o = q o) :
    groupVal g p = groupVal g q := by
  unfold groupVal
  congr 1
  apply List.map_congr_left
  intro f hf
  congr 1
  apply List.map_congr_left
  intro o ho
  exact h o (List.mem_flatMap.2 ⟨f, hf, ho⟩)

theorem groupVal_measurable {g : List (Factor ℝ ℝ≥0∞)}
    (h : ∀ f ∈ g, Measurable (fun p : String → ℝ => f.val (f.obs.map p))) : Measurable (groupVal g) := by
  induction g with
  | nil => exact measurable_const
  | cons f g ih =>
    have : groupVal (f :: g) = fun p => f.val (f.obs.map p) * groupVal g p := by
      funext p; simp [groupVal]
    rw [this]
    exact (h f (by simp)).mul (ih (fun k hk => h k (List.mem_cons_of_mem _ hk)))

/-- integrating a product of functions of different variables -/
theorem lmarginal_mul {μ : String → Measure ℝ} [∀ o, SigmaFinite (μ o)] {s t : Finset String} (hst : Disjoint s t)
    {f g : (String → ℝ) → ℝ≥0∞} (hf : Measurable f) (hg : Measurable g)
    (hfd : ∀ p q : String → ℝ, (∀ o ∈ s, p o = q o) → f p = f q)
    (hgd : ∀ p q : String → ℝ, (∀ o ∈ t, p o = q o) → g p = g q) (x : String → ℝ) :
    (∫⋯∫⁻_s ∪ t, (fun p => f p * g p) ∂μ) x = (∫⋯∫⁻_s, f ∂μ) x * (∫⋯∫⁻_t, g ∂μ) x := by
  have hfg : Measurable (fun p => f p * g p) := hf.mul hg
  rw [lmarginal_union μ _ hfg hst]
  have h1 : (∫⋯∫⁻_t, (fun p => f p * g p) ∂μ) = fun p => f p * (∫⋯∫⁻_t, g ∂μ) x := by
    funext p
    have hgc : (∫⋯∫⁻_t, g ∂μ) p = (∫⋯∫⁻_t, g ∂μ) x := by
      unfold lmarginal
      apply lintegral_congr
      intro y
      apply hgd
      intro o ho
      simp [Function.updateFinset, ho]
    rw [← hgc]
    unfold lmarginal
    rw [← lintegral_const_mul]
    · apply lintegral_congr
      intro y
      change f _ * g _ = f p * g _
      congr 1
      apply hfd
      intro o ho
      have : o ∉ t := Finset.disjoint_left.1 hst ho
      simp [Function.updateFinset, this]
    · exact hg.comp measurable_updateFinset
  rw [h1]
  unfold lmarginal
  rw [lintegral_mul_const]
  exact hf.comp measurable_updateFinset

theorem groupInt_append (box : String → ℝ × ℝ) (a b : List (Factor ℝ ℝ≥0∞))
    (hab : ∀ o ∈ groupObs a, o ∉ groupObs b)
    (ha : ∀ f ∈ a, Measurable (fun p : String → ℝ => f.val (f.obs.map p)))
    (hb : ∀ f ∈ b, Measurable (fun p : String → ℝ => f.val (f.obs.map p))) :
    groupInt box (a ++ b) = groupInt box a * groupInt box b := by
  unfold groupInt
  rw [← lmarginal_mul (s := (groupObs a).toFinset) (t := (groupObs b).toFinset) _ (groupVal_measurable ha)
    (groupVal_measurable hb) _ _]
  · congr 2
    · simp [groupObs, List.toFinset_append]
    · funext p
      simp [groupVal]
  · rw [Finset.disjoint_left]
    intro o ho
    simp only [List.mem_toFinset] at ho ⊢
    exact hab o ho
  · intro p q h
    exact groupVal_depends a (fun o ho => h o (by simpa using ho))
  · intro p q h
    exact groupVal_depends b (fun o ho => h o (by simpa using ho))

theorem groupInt_perm (box : String → ℝ × ℝ) {a b : List (Factor ℝ ℝ≥0∞)} (h : a.Perm b) :
    groupInt box a = groupInt box b := by
  have h1 : (groupObs a).toFinset = (groupObs b).toFinset := by
    ext o
    simp only [groupObs, List.mem_toFinset, List.mem_flatMap, h.mem_iff]
  have h2 : groupVal a = groupVal b := by
    funext p
    exact (h.map _).prod_eq
  unfold groupInt
  rw [h1, h2]

theorem groupInt_nil (box : String → ℝ × ℝ) : groupInt box [] = 1 := by
  unfold groupInt
  have h1 : (groupObs ([] : List (Factor ℝ ℝ≥0∞))).toFinset = ∅ := rfl
  rw [h1, lmarginal_empty]
  simp [groupVal]

/-- C26: the integral over a box factorises: if every daughter (factor, or product of the factors that share
observables) integrates correctly over its part of the box, the product of these integrals is the integral over the
box of the whole product in all its observables. -/
theorem product_integral_factorises (fs : List (Factor ℝ ℝ≥0∞)) (box : String → ℝ × ℝ)
    (hm : ∀ f ∈ fs, Measurable (fun p : String → ℝ => f.val (f.obs.map p)))
    (gs : List (List (Factor ℝ ℝ≥0∞))) (hg : groups fs = some gs)
    (int : List (Factor ℝ ℝ≥0∞) → Except Err ℝ≥0∞) (hint : ∀ g ∈ gs, int g = .ok (groupInt box g)) :
    productIntegrate int fs = .ok (groupInt box fs) ∧ (groupObs fs).toFinset = (productObs fs).toFinset := by
  obtain ⟨hperm, hne, -, hpair⟩ := groups_partition fs gs hg
  constructor
  · unfold productIntegrate
    rw [hg]
    simp only
    rw [mapM_ok_of_forall int (groupInt box) gs hint, except_bind_ok]
    obtain ⟨g, gs', rfl⟩ := List.exists_cons_of_ne_nil hne
    simp only [List.map_cons, except_pure, Except.ok.injEq]
    have h1 : ∀ (l : List ℝ≥0∞) (v : ℝ≥0∞), l.foldl (· * ·) v = v * l.prod := by
      intro l
      induction l with
      | nil => simp
      | cons a l ih => intro v; simp [ih, mul_assoc]
    rw [h1]
    have h2 : ∀ l : List (List (Factor ℝ ℝ≥0∞)),
        l.Pairwise (fun a b => ∀ o ∈ groupObs a, o ∉ groupObs b) →
        (∀ f ∈ l.flatten, Measurable (fun p : String → ℝ => f.val (f.obs.map p))) →
        (l.map (groupInt box)).prod = groupInt box l.flatten := by
      intro l
      induction l with
      | nil => intro _ _; simp [groupInt_nil]
      | cons a l ih =>
        intro hp hml
        rw [List.pairwise_cons] at hp
        simp only [List.map_cons, List.prod_cons, List.flatten_cons] at hml ⊢
        rw [groupInt_append box a l.flatten _ (fun f hf => hml f (by simp [hf]))
          (fun f hf => hml f (List.mem_append_right _ hf)),
          ih hp.2 (fun f hf => hml f (List.mem_append_right _ hf))]
        intro o ho hc
        obtain ⟨f, hf, hof⟩ := List.mem_flatMap.1 hc
        obtain ⟨b, hb, hfb⟩ := List.mem_flatten.1 hf
        exact hp.1 b hb o ho (List.mem_flatMap.2 ⟨f, hfb, hof⟩)
    have h3 := h2 (g :: gs') hpair (fun f hf => hm f (hperm.mem_iff.1 hf))
    simp only [List.map_cons, List.prod_cons] at h3
    rw [h3]
    exact groupInt_perm box hperm
  · ext o
    simp only [List.mem_toFinset, mem_productObs, groupObs, List.mem_flatMap]

/-- three factors, two of which share an observable: two groups -/
example : (groups [(⟨["x", "y"], fun _ => 1⟩ : Factor Rat Rat), ⟨["z"], fun _ => 1⟩, ⟨["y"], fun _ => 1⟩]).map
    (·.map (·.map (·.obs))) = some [[["z"]], [["x", "y"], ["y"]]] := by decide +kernel

/-- C26 is violated for a product of a single factor (over the factor's own normalisation range): evaluating it
raises `TypeError`, because the factor is called with a keyword that does not exist. -/
theorem product_of_one_violated {L : Type} [DecidableEq L] (f : Factor R V) (hf : f.obs.Nodup) (n : NSpace L) :
    productPdfHook (V := V) [(f, n)] n = .error .typeError := by
  have h : f.isDisjoint (sharedObs [f]) = true := by
    rw [isDisjoint_iff]
    intro o ho
    rw [mem_sharedObs]
    have hc := List.count_eq_one_of_mem hf ho
    simp [hc]
  have hg : (groups ([(f, n)].map (·.1))).isSome = true := by
    simp [groups, h]
  unfold productPdfHook
  rw [hg]
  simp

/-- C26: with two or more factors this never happens if they share no observable: `_pdf` always refuses, and the
product is computed as the unnormalised density over the integral (Verif/Pdf). -/
theorem product_of_more {L : Type} [DecidableEq L] (f g : Factor R V × NSpace L) (fs : List (Factor R V × NSpace L))
    (norm : NSpace L) (hn : ∀ e ∈ f :: g :: fs, e.2.obs = e.1.obs ∧ e.1.obs ≠ [])
    (hdis : ∀ o ∈ f.1.obs, o ∉ g.1.obs) :
    productPdfHook (V := V) (f :: g :: fs) norm = .error .functionNotImplemented := by
  unfold productPdfHook
  rw [if_neg]
  simp only [Bool.and_eq_true, List.all_eq_true, decide_eq_true_eq, not_and]
  intro _ hall
  have h1 := hall f (by simp)
  have h2 := hall g (by simp)
  obtain ⟨o, os, ho⟩ := List.exists_cons_of_ne_nil (hn f (by simp)).2
  have h3 : f.1.obs = g.1.obs := by
    rw [← (hn f (by simp)).1, ← (hn g (by simp)).1, h1, h2]
  exact hdis o (by simp [ho]) (by rw [← h3]; simp [ho])

end Zfit.Functor
