import Verif.Data.DataLemmas

/-!
# Properties C17-C19 and C21 (see /verif/properties.jsonl); C20 is in ConcatProps.lean

Events are points `String → Rat` (a value for every observable name); `table obs pts` is the array of the events,
`s.contains p` says that the point lies in the (union of the) limits, `d.Shows pts w` that every sequence of reads of the
data returns the right columns of the events `pts`, and that the weights are `w` (Spec.lean).
-/

namespace Zfit.Dat

open Zfit

/-! ## C17 -/

/-- C17.  Data created from an array contains exactly the events inside the space, in input order, each with its own
weight. -/
theorem cut_keeps_exactly_inside (s : DSpace) (hs : s.Proper) (pts : List (String → Rat)) (w : Option (List Rat))
    (hw : Weighted pts w) :
    ∃ d, Data.fromTensor s ⟨s.obs.length, table s.obs pts⟩ w false = .ok d ∧ d.space = s ∧
      d.Shows (pts.filter s.contains) (keptWeights s.contains pts w) := by
  obtain ⟨t, m, h1, h2⟩ := holds_fromTensor s.obs pts
  obtain ⟨d, h3, h4, h5, -⟩ := make_tensor_inv hs h2 hw
  exact ⟨d, by simp [Data.fromTensor, h1, h3], h4, h5.shows⟩

/-- C17.  Recreating data from what was read from data changes nothing. -/
theorem recreate_is_identity (s : DSpace) (hs : s.Proper) (pts : List (String → Rat)) (w : Option (List Rat))
    (hw : Weighted pts w) (d d' : Data) (v : Tensor)
    (hd : Data.fromTensor s ⟨s.obs.length, table s.obs pts⟩ w false = .ok d) (hv : d.value none = .ok (v, d')) :
    ∃ d₂, Data.fromTensor d.space v d.weights false = .ok d₂ ∧ d₂.space = d.space ∧
      d₂.Shows (pts.filter s.contains) d.weights := by
  obtain ⟨d1, h1, h2, h3⟩ := cut_keeps_exactly_inside s hs pts w hw
  rw [hd] at h1
  cases h1
  obtain ⟨d3, h4⟩ := Shows.read h3 none (by rintro x ⟨⟩)
  rw [hv] at h4
  simp only [Option.getD_none, Except.ok.injEq, Prod.mk.injEq] at h4
  obtain ⟨rfl, rfl⟩ := h4
  have hww := keptWeights_weighted s.contains hw
  obtain ⟨d2, h5, h6, h7⟩ := cut_keeps_exactly_inside s hs (pts.filter s.contains) (keptWeights s.contains pts w) hww
  have hin : ∀ p ∈ pts.filter s.contains, s.contains p = true := fun p hp => (List.mem_filter.1 hp).2
  rw [filter_all hin, keptWeights_all hww hin] at h7
  rw [h2, h3.1]
  exact ⟨d2, h5, h6, h7⟩

/-- C17.  The sample size of the cut data is the sum of the weights of the events inside, or their number. -/
theorem samplesize_of_cut (s : DSpace) (hs : s.Proper) (pts : List (String → Rat)) (w : Option (List Rat))
    (hw : Weighted pts w) (d : Data)
    (hd : Data.fromTensor s ⟨s.obs.length, table s.obs pts⟩ w false = .ok d) :
    d.samplesize = match w with
      | some w => (((pts.zip w).filter (fun e => s.contains e.1)).map (·.2)).sum
      | none => ((pts.filter s.contains).length : Rat) := by
  obtain ⟨t, m, h1, h2⟩ := holds_fromTensor s.obs pts
  obtain ⟨d1, h3, h4, h5, t', m', h6⟩ := make_tensor_inv hs h2 hw
  have : d = d1 := by
    simp only [Data.fromTensor, h1, except_bind_ok, h3, Except.ok.injEq] at hd
    exact hd.symm
  subst this
  unfold Data.samplesize
  rw [h5.2.2.1]
  cases w with
  | some w => rfl
  | none =>
    have := h5.2.1
    rw [h6] at this
    simp only [keptWeights, Option.map_none, h6, LDS.numEntries]
    have hl := congrArg List.length this.2.2.2
    simp only [table_length, List.length_map] at hl
    rw [← hl]

/-- C17, error branch: the number of weights has to be the number of events, for arrays and for columns. -/
theorem wrong_number_of_weights (s : DSpace) (hs : s.Proper) (pts : List (String → Rat)) (w : List Rat)
    (hw : w.length ≠ pts.length) (mapping : List (String × List Rat))
    (hm : ∀ o ∈ s.obs, dictGet mapping o = some (pts.map (fun p => p o))) :
    Data.fromTensor s ⟨s.obs.length, table s.obs pts⟩ (some w) false = .error .valueError ∧
    Data.fromMapping s mapping (some w) false = .error .valueError := by
  constructor
  · obtain ⟨t, m, h1, h2⟩ := holds_fromTensor s.obs pts
    simp only [Data.fromTensor, h1, except_bind_ok, Data.make, Bool.false_eq_true, if_false, LDS.value, h2.ndims]
    rw [h2.read (by simpa using hs.1) (by simp)]
    simp [cutTensor, checkWeights, table_length, hw]
  · unfold Data.fromMapping
    split
    · rfl
    · simp only [Data.make, Bool.false_eq_true, if_false, cutColumns]
      obtain ⟨o, os, ho⟩ := List.exists_cons_of_ne_nil hs.1
      have : ((s.obs.map (fun o => (dictGet mapping o).getD [])).headD []).length = pts.length := by
        rw [ho]; simp [hm o (by simp [ho])]
      rw [this]
      simp [checkWeights, hw]

/-- Non-vacuity: two leaves, one event on a boundary, one outside; the weights of the events inside are kept. -/
example :
    ((Data.fromTensor ⟨["x", "y"], some [[(0, 1), (0, 1)], [(2, 3), (2, 3)]]⟩
      ⟨2, [[1, 0], [1/2, 5/2], [5/2, 2]]⟩ (some [10, 20, 30]) false).bind
        (fun d => (d.value none).map (fun v => (v.1.rows, d.weights)))) =
    .ok ([[1, 0], [5/2, 2]], some [10, 30]) := by decide +kernel

/-! ## C18 -/

/-- What cutting columns does: an event is kept if each of its coordinates lies in the interval of some leaf. -/
theorem columns_cut (s : DSpace) (hs : s.Proper) (pts : List (String → Rat)) (w : Option (List Rat))
    (hw : Weighted pts w) (mapping : List (String × List Rat))
    (hm : ∀ o ∈ s.obs, dictGet mapping o = some (pts.map (fun p => p o))) :
    ∃ d, Data.fromMapping s mapping w false = .ok d ∧ d.space = s ∧
      d.Shows (pts.filter s.containsPerObs) (keptWeights s.containsPerObs pts w) := by
  obtain ⟨d, h1, h2, h3, -⟩ := make_columns_inv hs (holds_columns hm) hw
  refine ⟨d, ?_, h2, h3.shows⟩
  unfold Data.fromMapping
  rw [if_neg, h1]
  simp only [List.any_eq_true, not_exists, not_and]
  intro o ho
  simp [hm o ho]

/-- C18 for spaces with one leaf and for one dimensional spaces: the same events and weights whether the data comes
from columns (in any order, with further columns) or from the array. Missing from the full claim: the cases of
`columns_differ_from_array_violated`. -/
theorem columns_same_as_array_partial (s : DSpace) (hs : s.Proper) (h1 : s.Single ∨ s.obs.length = 1)
    (pts : List (String → Rat)) (w : Option (List Rat)) (hw : Weighted pts w) (mapping : List (String × List Rat))
    (hm : ∀ o ∈ s.obs, dictGet mapping o = some (pts.map (fun p => p o))) :
    ∃ d₁ d₂ kept w', Data.fromTensor s ⟨s.obs.length, table s.obs pts⟩ w false = .ok d₁ ∧
      Data.fromMapping s mapping w false = .ok d₂ ∧ d₁.Shows kept w' ∧ d₂.Shows kept w' := by
  obtain ⟨d1, e1, -, s1⟩ := cut_keeps_exactly_inside s hs pts w hw
  obtain ⟨d2, e2, -, s2⟩ := columns_cut s hs pts w hw mapping hm
  have heq : s.containsPerObs = s.contains := by
    funext p
    rw [Bool.eq_iff_iff]
    refine ⟨fun h => ?_, perObs_of_contains hs.2.2 p⟩
    rcases h1 with h1 | h1
    · exact contains_of_perObs hs.2.1 h1 p h
    · obtain ⟨o, ho⟩ := List.length_eq_one_iff.1 h1
      unfold DSpace.containsPerObs at h
      unfold DSpace.contains
      cases hl : s.lims with
      | none => rfl
      | some ls =>
        simp only [hl, ho, List.all_cons, List.all_nil, Bool.and_true, List.any_eq_true] at h ⊢
        obtain ⟨b, hb, h⟩ := h
        refine ⟨b, hb, ?_⟩
        have := hs.2.2 ls hl b hb
        rw [h1] at this
        obtain ⟨x, rfl⟩ := List.length_eq_one_iff.1 this
        simpa using h
  rw [heq] at s2
  exact ⟨d1, d2, _, _, e1, e2, s1, s2⟩

/-- C18 is violated for several limits in several dimensions: the event (1/2, 5/2) lies in neither square, is cut from
the array but kept from the columns. -/
theorem columns_differ_from_array_violated :
    let s : DSpace := ⟨["x", "y"], some [[(0, 1), (0, 1)], [(2, 3), (2, 3)]]⟩
    ∃ d₁ d₂ : Data, Data.fromTensor s ⟨2, [[1/2, 5/2]]⟩ none false = .ok d₁ ∧
      Data.fromMapping s [("x", [1/2]), ("y", [5/2])] none false = .ok d₂ ∧
      d₁.readAll [none] = .ok [⟨2, []⟩] ∧ d₂.readAll [none] = .ok [⟨2, [[1/2, 5/2]]⟩] := by
  intro s
  refine ⟨⟨s, .tensor ⟨2, []⟩ [0, 1], none⟩, ⟨s, .columns [[1/2], [5/2]], none⟩, ?_⟩
  decide +kernel

/-- Non-vacuity of the partial theorem: columns in another order and one more. -/
example :
    ((Data.fromMapping ⟨["x", "y"], some [[(0, 1), (2, 3)]]⟩ [("y", [2, 0]), ("z", [7, 7]), ("x", [1, 1])]
      (some [5, 6]) false).bind (fun d => (d.value none).map (fun v => (v.1.rows, d.weights)))) =
    .ok ([[1, 2]], some [5]) := by decide +kernel

/-! ## C19 -/

/-- C19.  Whatever chain of `with_obs` with names follows the creation (from an array, or from columns), every read of
any selection of the remaining observables returns their original columns: no event and no weight is lost or moved. -/
theorem views_show_original_columns (s : DSpace) (hs : s.Proper) (pts : List (String → Rat)) (w : Option (List Rat))
    (hw : Weighted pts w) (reqs : List (List String)) (hn : ∀ l ∈ reqs, l.Nodup) (d d' : Data)
    (hd : Data.fromTensor s ⟨s.obs.length, table s.obs pts⟩ w false = .ok d) (h : d.withObsAll reqs = .ok d') :
    d'.Shows (pts.filter s.contains) (keptWeights s.contains pts w) ∧ ∀ o ∈ d'.space.obs, o ∈ s.obs := by
  obtain ⟨t, m, h1, h2⟩ := holds_fromTensor s.obs pts
  obtain ⟨d1, h3, h4, h5, -⟩ := make_tensor_inv hs h2 hw
  have : d = d1 := by
    simp only [Data.fromTensor, h1, except_bind_ok, h3, Except.ok.injEq] at hd
    exact hd.symm
  subst this
  obtain ⟨i1, i2⟩ := h5.withObsAll (by rw [h4]; exact fun p hp => (List.mem_filter.1 hp).2) hn h
  exact ⟨i1.shows, by rw [h4] at i2; exact i2⟩

/-- C19 for data from columns (one leaf). -/
theorem views_of_columns (s : DSpace) (hs : s.Proper) (hsing : s.Single) (pts : List (String → Rat))
    (w : Option (List Rat)) (hw : Weighted pts w) (mapping : List (String × List Rat))
    (hm : ∀ o ∈ s.obs, dictGet mapping o = some (pts.map (fun p => p o)))
    (reqs : List (List String)) (hn : ∀ l ∈ reqs, l.Nodup) (d d' : Data)
    (hd : Data.fromMapping s mapping w false = .ok d) (h : d.withObsAll reqs = .ok d') :
    d'.Shows (pts.filter s.contains) (keptWeights s.contains pts w) ∧ ∀ o ∈ d'.space.obs, o ∈ s.obs := by
  obtain ⟨d1, h3, h4, h5, -⟩ := make_columns_inv hs (holds_columns hm) hw
  have heq : s.containsPerObs = s.contains := by
    funext p
    rw [Bool.eq_iff_iff]
    exact ⟨contains_of_perObs hs.2.1 hsing p, perObs_of_contains hs.2.2 p⟩
  rw [heq] at h5
  have : d = d1 := by
    unfold Data.fromMapping at hd
    rw [if_neg, h3] at hd
    · cases hd; rfl
    · simp only [List.any_eq_true, not_exists, not_and]
      intro o ho
      simp [hm o ho]
  subst this
  obtain ⟨i1, i2⟩ := h5.withObsAll (by rw [h4]; exact fun p hp => (List.mem_filter.1 hp).2) hn h
  exact ⟨i1.shows, by rw [h4] at i2; exact i2⟩

/-- C19.  One `with_obs` orders the observables as asked for, and drops unknown names. -/
theorem view_order (d d' : Data) (l : List String) (h : d.withObs l = .ok d') :
    d'.space.obs = l.filter (· ∈ d.space.obs) := by
  have hmake : ∀ (s : DSpace) (ds : LDS) (w : Option (List Rat)) (d : Data), Data.make s ds w false = .ok d →
      d.space = s := by
    intro s ds w d h
    cases ds with
    | tensor t m =>
      simp only [Data.make, Bool.false_eq_true, if_false, bind_eq_ok, except_pure, Except.ok.injEq] at h
      obtain ⟨_, _, _, _, _, _, rfl⟩ := h
      rfl
    | columns c =>
      simp only [Data.make, Bool.false_eq_true, if_false, bind_eq_ok, except_pure, Except.ok.injEq] at h
      obtain ⟨_, _, rfl⟩ := h
      rfl
  simp only [Data.withObs, bind_eq_ok] at h
  obtain ⟨s, h1, _, _, _, _, h4⟩ := h
  rw [hmake _ _ _ _ h4]
  unfold DSpace.withObs at h1
  split at h1
  · cases h1
  · cases h1
    rfl

/-- C19.  `with_obs` with a space whose limits differ keeps the events inside the new limits, with their weights. -/
theorem view_in_new_space (s : DSpace) (hs : s.Proper) (pts : List (String → Rat)) (w : Option (List Rat))
    (hw : Weighted pts w) (s' : DSpace) (hs' : s'.Proper) (hsub : ∀ o ∈ s'.obs, o ∈ s.obs) (d : Data)
    (hd : Data.fromTensor s ⟨s.obs.length, table s.obs pts⟩ w false = .ok d) :
    ∃ d', d.withSpace s' = .ok d' ∧ d'.space = s' ∧
      d'.Shows ((pts.filter s.contains).filter s'.contains)
        (keptWeights s'.contains (pts.filter s.contains) (keptWeights s.contains pts w)) := by
  obtain ⟨t, m, h1, h2⟩ := holds_fromTensor s.obs pts
  obtain ⟨d1, h3, h4, h5, h6⟩ := make_tensor_inv hs h2 hw
  have : d = d1 := by
    simp only [Data.fromTensor, h1, except_bind_ok, h3, Except.ok.injEq] at hd
    exact hd.symm
  subst this
  obtain ⟨s2, e1, -⟩ := withObs_all (s := d.space) hs'.1 (by rw [h4]; exact hsub)
  obtain ⟨ds, e2, e3, e4⟩ := h5.select hs'.1 (by rw [h4]; exact hsub)
  obtain ⟨idx, e5, e6⟩ := bind_eq_ok.1 e2
  obtain ⟨t2, m2, rfl⟩ := e4 h6
  obtain ⟨d2, e7, e8, e9, -⟩ := make_tensor_inv hs' e3 (keptWeights_weighted s.contains hw)
  refine ⟨d2, ?_, e8, e9.shows⟩
  simp only [Data.withSpace, e1, except_bind_ok, e5, e6, h5.2.2.1, e7]

/-- C19, error branch: an observable the data does not have. -/
theorem view_unknown_observable (d : Data) (l : List String) (h : ∀ o ∈ l, o ∉ d.space.obs) :
    d.withObs l = .error .obsIncompatible := by
  have : l.any (· ∈ d.space.obs) = false := by
    rw [List.any_eq_false]; intro o ho; simpa using h o ho
  simp [Data.withObs, DSpace.withObs, this]

/-- Non-vacuity: a chain of three views of three columns, with a cut in the beginning. -/
example :
    ((Data.fromTensor ⟨["x", "y", "z"], some [[(0, 1), (10, 11), (20, 21)]]⟩
      ⟨3, [[0, 10, 20], [5, 10, 20], [1, 11, 21]]⟩ (some [1, 2, 3]) false).bind (fun d =>
        (d.withObsAll [["z", "x", "y"], ["y", "z"], ["z", "y", "w"]]).bind (fun d' =>
          (d'.readAll [some ["y"], none]).map (fun v => (d'.space.obs, v, d'.weights))))) =
    .ok (["z", "y"], [⟨1, [[10], [11]]⟩, ⟨2, [[20, 10], [21, 11]]⟩], some [1, 3]) := by decide +kernel

/-! ## C21 -/

/-- C21 when weights are given exactly if the sampler was created with weights: an update either replaces sample and
weights together by what was given (cut to the limits unless they are guaranteed), or leaves both in place. Missing from the full claim: the
cases of `sampler_update_not_atomic_violated`, `sampler_weights_unchecked_violated`. -/
theorem sampler_update_partial (st : Sampler) (t : Tensor) (w : Option (List Rat)) (g : Bool)
    (hw : w.isSome = st.weights.isSome) :
    (∃ e, st.update t w g = (st, some e)) ∨
    (∃ t' w', (if g then (t', w') = (t, w) else cutTensor st.space t w = .ok (t', w')) ∧
      st.update t w g = (⟨st.space, t', w', t'.rows.length⟩, none)) := by
  unfold Sampler.update
  cases hp : st.prepare t w g with
  | error e => exact .inl ⟨e, rfl⟩
  | ok r =>
    obtain ⟨t', w'⟩ := r
    have hcut : if g then (t', w') = (t, w) else cutTensor st.space t w = .ok (t', w') := by
      unfold Sampler.prepare at hp
      split at hp
      · cases hp
      · split at hp
        · rename_i hg
          simp only [Except.ok.injEq] at hp
          rw [if_pos hg]
          exact hp.symm
        · rename_i hg
          rw [if_neg hg]
          exact hp
    have hw' : w'.isSome = w.isSome := by
      cases g with
      | true =>
        simp only [if_true, Prod.mk.injEq] at hcut
        rw [hcut.2]
      | false =>
        simp only [Bool.false_eq_true, if_false] at hcut
        unfold cutTensor at hcut
        rw [bind_eq_ok] at hcut
        obtain ⟨-, -, hcut⟩ := hcut
        split at hcut
        · simp only [except_pure, Except.ok.injEq, Prod.mk.injEq] at hcut
          rw [hcut.2]
        · split at hcut
          · cases hcut
          · simp only [except_pure, Except.ok.injEq, Prod.mk.injEq] at hcut
            rw [← hcut.2]
            simp
    refine .inr ⟨t', w', hcut, ?_⟩
    have : w'.isSome = st.weights.isSome := hw'.trans hw
    cases hw1 : w' <;> cases hw2 : st.weights <;> simp_all

/-- C21 for `resample` of a sampler without weights (a model samples without weights). Missing from the full claim: the cases of
`sampler_update_not_atomic_violated`, `sampler_weights_unchecked_violated`. -/
theorem sampler_resample_partial (st : Sampler) (hst : st.weights = none) (n : Nat) (g : Bool)
    (draw : Except Err (Tensor × Option (List Rat))) (hd : ∀ t w, draw = .ok (t, w) → w = none) :
    (∃ e, st.resample n draw g = (st, some e)) ∨
    (∃ t t', draw = .ok (t, none) ∧ t.rows.length = n ∧ st.resample n draw g = (⟨st.space, t', none, t'.rows.length⟩, none)) := by
  unfold Sampler.resample
  cases draw with
  | error e => exact .inl ⟨e, rfl⟩
  | ok r =>
    obtain ⟨t, w⟩ := r
    have := hd t w rfl
    subst this
    simp only [Option.any_none, Bool.false_eq_true, if_false]
    split
    · exact .inl ⟨_, rfl⟩
    · rename_i hn
      simp only [not_or, Decidable.not_not] at hn
      rcases sampler_update_partial st t none g (by simp [hst]) with ⟨e, he⟩ | ⟨t', w', h1, h2⟩
      · exact .inl ⟨e, he⟩
      · refine .inr ⟨t, t', rfl, hn.1, ?_⟩
        rw [h2]
        cases w' with
        | none => rfl
        | some v =>
          exfalso
          cases g with
          | true => simp at h1
          | false =>
            simp only [Bool.false_eq_true, if_false, cutTensor, bind_eq_ok] at h1
            obtain ⟨-, -, h1⟩ := h1
            split at h1
            · simp at h1
            · split at h1
              · cases h1
              · simp at h1

/-- C21 for `resample` in general: whenever the drawn sample has weights exactly if the sampler does, the new sample and
its weights are those drawn, cut to the space (or as they are, if they are guaranteed to lie inside); otherwise the
call is refused and nothing changes. Missing from the full claim: the cases of `sampler_update_not_atomic_violated`,
`sampler_weights_unchecked_violated`. -/
theorem sampler_resample_weights_partial (st : Sampler) (n : Nat) (g : Bool)
    (draw : Except Err (Tensor × Option (List Rat)))
    (hd : ∀ t w, draw = .ok (t, w) → w.isSome = st.weights.isSome) :
    (∃ e, st.resample n draw g = (st, some e)) ∨
    (∃ t w t' w', draw = .ok (t, w) ∧ t.rows.length = n ∧ (∀ v, w = some v → v.length = n) ∧
      (if g then (t', w') = (t, w) else cutTensor st.space t w = .ok (t', w')) ∧
      st.resample n draw g = (⟨st.space, t', w', t'.rows.length⟩, none)) := by
  unfold Sampler.resample
  cases draw with
  | error e => exact .inl ⟨e, rfl⟩
  | ok r =>
    obtain ⟨t, w⟩ := r
    have hw := hd t w rfl
    simp only
    split
    · exact .inl ⟨_, rfl⟩
    · rename_i hn
      simp only [not_or, Decidable.not_not] at hn
      split
      · exact .inl ⟨_, rfl⟩
      · rename_i hwl
        rcases sampler_update_partial st t w g hw with ⟨e, he⟩ | ⟨t', w', h1, h2⟩
        · exact .inl ⟨e, he⟩
        · refine .inr ⟨t, w, t', w', rfl, hn.1, ?_, h1, h2⟩
          rintro v rfl
          simpa using hwl

example : let st : Sampler := ⟨⟨["x"], none⟩, ⟨1, [[1], [2]]⟩, some [10, 20], 2⟩
    st.resample 3 (.ok (⟨1, [[5], [6], [7]]⟩, some [1, 2, 3])) false =
      (⟨⟨["x"], none⟩, ⟨1, [[5], [6], [7]]⟩, some [1, 2, 3], 3⟩, none) := by
  decide +kernel

/-- C21 is violated: a sampler with weights is updated without weights.  The call raises, but the sample (here with
fewer events than there are weights) has been replaced. -/
theorem sampler_update_not_atomic_violated :
    let st : Sampler := ⟨⟨["x"], none⟩, ⟨1, [[1], [2]]⟩, some [10, 20], 2⟩
    st.update ⟨1, [[5]]⟩ none false = (⟨⟨["x"], none⟩, ⟨1, [[5]]⟩, some [10, 20], 2⟩, some .valueError) := by
  decide +kernel

/-- C21: with guaranteed limits, weights of any length are accepted, so that sample and weights disagree. -/
theorem sampler_weights_unchecked_violated :
    let st : Sampler := ⟨⟨["x"], none⟩, ⟨1, [[1], [2]]⟩, some [10, 20], 2⟩
    st.update ⟨1, [[5]]⟩ (some [1, 2, 3]) true = (⟨⟨["x"], none⟩, ⟨1, [[5]]⟩, some [1, 2, 3], 1⟩, none) := by
  decide +kernel

/-- Non-vacuity: an accepted update with a cut, and a rejected one. -/
example :
    let st : Sampler := ⟨⟨["x"], some [[(0, 3)]]⟩, ⟨1, [[1], [2]]⟩, some [10, 20], 2⟩
    st.update ⟨1, [[5], [3]]⟩ (some [1, 2]) false = (⟨st.space, ⟨1, [[3]]⟩, some [2], 1⟩, none) ∧
    st.update ⟨2, [[5, 3]]⟩ (some [1]) false = (st, some .valueError) := by
  decide +kernel

end Zfit.Dat
