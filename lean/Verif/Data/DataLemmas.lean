import Verif.Data.Lemmas

namespace Zfit.Dat

open Zfit

/-- The data holds the events `pts` with the weights `w`. -/
def Inv (d : Data) (pts : List (String → Rat)) (w : Option (List Rat)) : Prop :=
  d.space.Proper ∧ Holds d.ds d.space.obs.length (table d.space.obs pts) ∧ d.weights = w ∧ Weighted pts w

theorem table_length (obs : List String) (pts : List (String → Rat)) : (table obs pts).length = pts.length := by
  simp [table]

theorem withObs_all {s : DSpace} {l : List String} (hne : l ≠ []) (hin : ∀ o ∈ l, o ∈ s.obs) :
    ∃ s', s.withObs l = .ok s' ∧ s'.obs = l := by
  unfold DSpace.withObs
  have hany : l.any (· ∈ s.obs) = true := by
    obtain ⟨o, os, rfl⟩ := List.exists_cons_of_ne_nil hne
    simp [hin o (by simp)]
  rw [if_neg (by simp [hany])]
  refine ⟨_, rfl, ?_⟩
  simp only
  rw [List.filter_eq_self]
  intro o ho
  simpa using hin o ho

theorem mapM_pyIndex {own l : List String} (h : ∀ o ∈ l, o ∈ own) : l.mapM (pyIndex own) = .ok (l.map own.idxOf) := by
  apply mapM_ok_of_forall
  intro o ho
  simp [pyIndex, h o ho]

theorem table_pick {obs l : List String} (h : ∀ o ∈ l, o ∈ obs) (pts : List (String → Rat)) :
    (table obs pts).map (fun r => (l.map obs.idxOf).map (ent r)) = table l pts := by
  simp only [table, List.map_map]
  apply List.map_congr_left
  intro p _
  simp only [Function.comp]
  apply List.map_congr_left
  intro o ho
  exact ent_point (h o ho) p

theorem map_range_idxOf {l : List String} (h : l.Nodup) : l.map l.idxOf = List.range l.length := by
  apply List.ext_getElem
  · simp
  · intro i h1 h2
    simp only [List.length_map] at h1
    simp [h.idxOf_getElem i h1]

theorem Inv.value {d : Data} {pts : List (String → Rat)} {w : Option (List Rat)} (h : Inv d pts w)
    (l : Option (List String)) (hl : ∀ x, l = some x → x ≠ [] ∧ ∀ o ∈ x, o ∈ d.space.obs) :
    ∃ d', d.value l = .ok (⟨(l.getD d.space.obs).length, table (l.getD d.space.obs) pts⟩, d') ∧ Inv d' pts w ∧
      d'.space = d.space := by
  obtain ⟨h1, h2, h3, h4⟩ := h
  have key : ∀ x : List String, x ≠ [] → (∀ o ∈ x, o ∈ d.space.obs) →
      ∃ ds', d.ds.value (some (x.map d.space.obs.idxOf)) = .ok (⟨x.length, table x pts⟩, ds') ∧
        Holds ds' d.space.obs.length (table d.space.obs pts) := by
    intro x hne hin
    obtain ⟨ds', hv, hh⟩ := h2.value (idx := x.map d.space.obs.idxOf) (by simpa using hne) (by
      intro i hi
      obtain ⟨o, ho, rfl⟩ := List.mem_map.1 hi
      exact List.idxOf_lt_length_of_mem (hin o ho))
    rw [table_pick hin, List.length_map] at hv
    exact ⟨ds', hv, hh⟩
  cases l with
  | none =>
    obtain ⟨ds', hv, hh⟩ := key d.space.obs h1.1 (fun o ho => ho)
    rw [map_range_idxOf h1.2.1] at hv
    refine ⟨{ d with ds := ds' }, ?_, ⟨h1, hh, h3, h4⟩, rfl⟩
    simp only [Data.value, hv, except_bind_ok]
    rfl
  | some x =>
    obtain ⟨hne, hin⟩ := hl x rfl
    obtain ⟨ds', hv, hh⟩ := key x hne hin
    obtain ⟨s', hs, ho⟩ := withObs_all hne hin
    refine ⟨{ d with ds := ds' }, ?_, ⟨h1, hh, h3, h4⟩, rfl⟩
    simp only [Data.value, hs, except_bind_ok, ho, mapM_pyIndex hin, hv]
    rfl

theorem Inv.shows {d : Data} {pts : List (String → Rat)} {w : Option (List Rat)} (h : Inv d pts w) :
    d.Shows pts w := by
  refine ⟨h.2.2.1, fun reads hr => ?_⟩
  induction reads generalizing d with
  | nil => rfl
  | cons l ls ih =>
    obtain ⟨d', hv, hi, hsp⟩ := h.value l (fun x hx => hr x (by simp [hx]))
    simp only [Data.readAll, hv, except_bind_ok, List.map_cons]
    rw [ih hi (fun x hx => by rw [hsp]; exact hr x (by simp [hx]))]
    rw [hsp]
    rfl

theorem keptWeights_table {pts : List (String → Rat)} {w : Option (List Rat)} {obs : List String}
    {f : List Rat → Bool} {keep : (String → Rat) → Bool} (h : ∀ p ∈ pts, f (obs.map p) = keep p) :
    w.map (fun l => (((table obs pts).zip l).filter (fun e => f e.1)).map (·.2)) = keptWeights keep pts w := by
  unfold keptWeights
  congr 1
  funext l
  unfold table
  rw [List.zip_map_left]
  rw [List.filter_map, List.map_map]
  have : (pts.zip l).filter ((fun e : List Rat × Rat => f e.1) ∘ Prod.map (fun p => obs.map p) id) =
      (pts.zip l).filter (fun e => keep e.1) := by
    apply List.filter_congr
    rintro ⟨p, x⟩ hp
    simp [h p (List.of_mem_zip hp).1]
  rw [this]
  rfl

theorem filter_table {pts : List (String → Rat)} {obs : List String}
    {f : List Rat → Bool} {keep : (String → Rat) → Bool} (h : ∀ p ∈ pts, f (obs.map p) = keep p) :
    (table obs pts).filter f = table obs (pts.filter keep) := by
  unfold table
  rw [List.filter_map]
  congr 1
  apply List.filter_congr
  intro p hp
  exact h p hp

theorem keptWeights_weighted {pts : List (String → Rat)} {w : Option (List Rat)} (keep : (String → Rat) → Bool)
    (h : Weighted pts w) : Weighted (pts.filter keep) (keptWeights keep pts w) := by
  intro l hl
  cases w with
  | none => cases hl
  | some v =>
    simp only [keptWeights, Option.map_some, Option.some.injEq] at hl
    subst hl
    have := h v rfl
    clear h
    simp only [List.length_map]
    induction pts generalizing v with
    | nil => simp
    | cons p pts ih =>
      cases v with
      | nil => simp at this
      | cons x v =>
        simp only [List.length_cons, Nat.add_right_cancel_iff] at this
        simp only [List.zip_cons_cons, List.filter_cons]
        split
        · simp [ih v this]
        · exact ih v this

theorem keptWeights_all {pts : List (String → Rat)} {w : Option (List Rat)} {keep : (String → Rat) → Bool}
    (h : Weighted pts w) (hk : ∀ p ∈ pts, keep p = true) : keptWeights keep pts w = w := by
  cases w with
  | none => rfl
  | some v =>
    simp only [keptWeights, Option.map_some, Option.some.injEq]
    rw [List.filter_eq_self.2 (by rintro ⟨p, x⟩ hp; exact hk p (List.of_mem_zip hp).1)]
    exact List.map_snd_zip (by rw [h v rfl])

theorem make_tensor_inv {s : DSpace} (hs : s.Proper) {t : Tensor} {m : List Nat} {pts : List (String → Rat)}
    {w : Option (List Rat)} (h : Holds (.tensor t m) s.obs.length (table s.obs pts)) (hw : Weighted pts w) :
    ∃ d, Data.make s (.tensor t m) w false = .ok d ∧ d.space = s ∧
      Inv d (pts.filter s.contains) (keptWeights s.contains pts w) ∧ ∃ t' m', d.ds = .tensor t' m' := by
  obtain ⟨d, h1, h2, h3, h4, h5⟩ := h.makeTensor hs.1 (w := w) (by intro l hl; rw [table_length]; exact hw l hl)
  have hin : ∀ p ∈ pts, s.insideRow (s.obs.map p) = s.contains p := fun p _ => insideRow_point hs.2.2 p
  refine ⟨d, h1, h2, ⟨by rw [h2]; exact hs, ?_, ?_, keptWeights_weighted _ hw⟩, h5⟩
  · rw [h2, ← filter_table hin]; exact h3
  · rw [h4, keptWeights_table hin]

theorem make_columns_inv {s : DSpace} (hs : s.Proper) {c : List (List Rat)} {pts : List (String → Rat)}
    {w : Option (List Rat)} (h : Holds (.columns c) s.obs.length (table s.obs pts)) (hw : Weighted pts w) :
    ∃ d, Data.make s (.columns c) w false = .ok d ∧ d.space = s ∧
      Inv d (pts.filter s.containsPerObs) (keptWeights s.containsPerObs pts w) ∧ ∃ c', d.ds = .columns c' := by
  obtain ⟨d, h1, h2, h3, h4, h5⟩ := h.makeColumns hs.1 (w := w) (by intro l hl; rw [table_length]; exact hw l hl)
  have hin : ∀ p ∈ pts, perAxis s (s.obs.map p) = s.containsPerObs p := fun p _ => perAxis_point hs.2.1 p
  refine ⟨d, h1, h2, ⟨by rw [h2]; exact hs, ?_, ?_, keptWeights_weighted _ hw⟩, h5⟩
  · rw [h2, ← filter_table hin]; exact h3
  · rw [h4, keptWeights_table hin]

theorem holds_fromTensor (obs : List String) (pts : List (String → Rat)) :
    ∃ t m, LDS.fromTensor ⟨obs.length, table obs pts⟩ obs.length = .ok (.tensor t m) ∧
      Holds (.tensor t m) obs.length (table obs pts) := by
  obtain ⟨d, h1, h2, t, m, rfl⟩ := Holds.fromTensor (n := obs.length) (tab := table obs pts) (by
    intro r hr
    obtain ⟨p, -, rfl⟩ := List.mem_map.1 hr
    simp)
  exact ⟨t, m, h1, h2⟩

theorem holds_columns {obs : List String} {pts : List (String → Rat)} {mapping : List (String × List Rat)}
    (h : ∀ o ∈ obs, dictGet mapping o = some (pts.map (fun p => p o))) :
    Holds (.columns (obs.map (fun o => (dictGet mapping o).getD []))) obs.length (table obs pts) := by
  refine ⟨?_, ?_⟩
  · intro r hr
    obtain ⟨p, -, rfl⟩ := List.mem_map.1 hr
    simp
  · apply List.ext_getElem
    · simp
    · intro i h1 h2
      simp only [List.length_map] at h1
      simp only [List.getElem_map, List.getElem_range, h _ (List.getElem_mem h1), Option.getD_some, table, List.map_map]
      apply List.map_congr_left
      intro p _
      simp [ent, h1]

/-- The space of a view keeps the points of the original space. -/
theorem withObs_space {s s' : DSpace} (hs : s.Proper) {l : List String} (hn : l.Nodup) (h : s.withObs l = .ok s') :
    s'.Proper ∧ s'.obs = l.filter (· ∈ s.obs) ∧ ∀ p, s.contains p = true → s'.contains p = true := by
  unfold DSpace.withObs at h
  split at h
  · cases h
  · rename_i hany
    simp only [Decidable.not_not] at hany
    simp only [Except.ok.injEq] at h
    subst h
    refine ⟨⟨?_, hn.filter _, ?_⟩, rfl, ?_⟩
    · simp only [ne_eq, List.filter_eq_nil_iff]
      obtain ⟨o, ho, h2⟩ := List.any_eq_true.1 hany
      intro hh
      exact hh o ho h2
    · intro ls hls b hb
      cases hl : s.lims with
      | none => rw [hl] at hls; cases hls
      | some ls0 =>
        simp only [hl, Option.map_some, Option.some.injEq] at hls
        subst hls
        obtain ⟨b0, hb0, rfl⟩ := List.mem_map.1 hb
        simp
    · intro p hp
      unfold DSpace.contains at hp ⊢
      cases hl : s.lims with
      | none => simp
      | some ls =>
        simp only [hl, Option.map_some, List.any_eq_true] at hp ⊢
        obtain ⟨b, hb, hall⟩ := hp
        refine ⟨_, List.mem_map.2 ⟨b, hb, rfl⟩, ?_⟩
        rw [List.all_eq_true] at hall ⊢
        rintro ⟨o, x⟩ he
        obtain ⟨i, hi⟩ := List.mem_iff_getElem?.1 he
        simp only [List.getElem?_zip_eq_some, List.getElem?_map, Option.map_eq_some_iff] at hi
        obtain ⟨h1, o', h2, h3⟩ := hi
        rw [h1] at h2
        cases h2
        have ho := (List.mem_filter.1 (List.mem_of_getElem? h1)).2
        simp only [decide_eq_true_eq] at ho
        have hlt := List.idxOf_lt_length_of_mem ho
        have hbl := hs.2.2 ls hl b hb
        have := hall (o, b.getD (s.obs.idxOf o) (0, 0)) (by
          rw [List.mem_iff_getElem?]
          refine ⟨s.obs.idxOf o, ?_⟩
          rw [List.getElem?_zip_eq_some]
          refine ⟨by simp [List.getElem?_eq_getElem hlt], ?_⟩
          simp [hbl, hlt])
        rw [h3] at this
        exact this

theorem filter_all {α : Type} {l : List α} {f : α → Bool} (h : ∀ x ∈ l, f x = true) : l.filter f = l :=
  List.filter_eq_self.2 h

theorem Inv.select {d : Data} {pts : List (String → Rat)} {w : Option (List Rat)} (h : Inv d pts w) {l : List String}
    (hne : l ≠ []) (hin : ∀ o ∈ l, o ∈ d.space.obs) :
    ∃ ds, (d.permIndices l >>= d.ds.withIndices) = .ok ds ∧ Holds ds l.length (table l pts) ∧
      ((∃ t m, d.ds = .tensor t m) → ∃ t m, ds = .tensor t m) := by
  have hperm : d.permIndices l = .ok (l.map d.space.obs.idxOf) := by
    unfold Data.permIndices
    rw [if_neg (by simpa using hne), if_neg, mapM_pyIndex hin]
    simp only [List.any_eq_true, decide_eq_true_eq, not_exists, not_and, Decidable.not_not]
    exact hin
  obtain ⟨ds, h1, h2, h3⟩ := h.2.1.withIndices (idx := l.map d.space.obs.idxOf) (by
    intro i hi
    obtain ⟨o, ho, rfl⟩ := List.mem_map.1 hi
    exact List.idxOf_lt_length_of_mem (hin o ho))
  rw [table_pick hin, List.length_map] at h2
  exact ⟨ds, by rw [hperm]; exact h1, h2, h3⟩

theorem make_inside {s : DSpace} (hs : s.Proper) {ds : LDS} {pts : List (String → Rat)} {w : Option (List Rat)}
    (hh : Holds ds s.obs.length (table s.obs pts)) (hw : Weighted pts w) (hin : ∀ p ∈ pts, s.contains p = true) :
    ∃ d, Data.make s ds w false = .ok d ∧ d.space = s ∧ Inv d pts w := by
  cases ds with
  | tensor t m =>
    obtain ⟨d, h1, h2, h3, -⟩ := make_tensor_inv hs hh hw
    rw [filter_all hin, keptWeights_all hw hin] at h3
    exact ⟨d, h1, h2, h3⟩
  | columns c =>
    obtain ⟨d, h1, h2, h3, -⟩ := make_columns_inv hs hh hw
    have hin' : ∀ p ∈ pts, s.containsPerObs p = true := fun p hp => perObs_of_contains hs.2.2 p (hin p hp)
    rw [filter_all hin', keptWeights_all hw hin'] at h3
    exact ⟨d, h1, h2, h3⟩

theorem Inv.withObs {d d' : Data} {pts : List (String → Rat)} {w : Option (List Rat)} (h : Inv d pts w)
    (hin : ∀ p ∈ pts, d.space.contains p = true) {l : List String} (hn : l.Nodup) (hd : d.withObs l = .ok d') :
    Inv d' pts w ∧ d'.space.obs = l.filter (· ∈ d.space.obs) ∧ ∀ p ∈ pts, d'.space.contains p = true := by
  unfold Data.withObs at hd
  rw [bind_eq_ok] at hd
  obtain ⟨s', hs', hd⟩ := hd
  obtain ⟨hp, ho, hc⟩ := withObs_space h.1 hn hs'
  have hsub : ∀ o ∈ s'.obs, o ∈ d.space.obs := by
    intro o hh; rw [ho] at hh; simpa using (List.mem_filter.1 hh).2
  obtain ⟨ds, h1, h2, -⟩ := h.select hp.1 hsub
  obtain ⟨idx, h3, h4⟩ := bind_eq_ok.1 h1
  simp only [h3, h4, except_bind_ok, h.2.2.1] at hd
  obtain ⟨d2, h5, h6, h7⟩ := make_inside hp h2 h.2.2.2 (fun p hh => hc p (hin p hh))
  rw [hd] at h5
  cases h5
  exact ⟨h7, by rw [h6]; exact ho, fun p hh => by rw [h6]; exact hc p (hin p hh)⟩

theorem Inv.withObsAll {d d' : Data} {pts : List (String → Rat)} {w : Option (List Rat)} (h : Inv d pts w)
    (hin : ∀ p ∈ pts, d.space.contains p = true) {reqs : List (List String)} (hn : ∀ l ∈ reqs, l.Nodup)
    (hd : d.withObsAll reqs = .ok d') : Inv d' pts w ∧ (∀ o ∈ d'.space.obs, o ∈ d.space.obs) := by
  induction reqs generalizing d with
  | nil => cases hd; exact ⟨h, fun o ho => ho⟩
  | cons l ls ih =>
    simp only [Data.withObsAll, bind_eq_ok] at hd
    obtain ⟨d1, h1, h2⟩ := hd
    obtain ⟨i1, i2, i3⟩ := h.withObs hin (hn l (by simp)) h1
    obtain ⟨j1, j2⟩ := ih i1 i3 (fun x hx => hn x (by simp [hx])) h2
    refine ⟨j1, fun o ho => ?_⟩
    have := j2 o ho
    rw [i2] at this
    simpa using (List.mem_filter.1 this).2

theorem Shows.read {d : Data} {pts : List (String → Rat)} {w : Option (List Rat)} (h : d.Shows pts w)
    (l : Option (List String)) (hl : ∀ x, l = some x → x ≠ [] ∧ ∀ o ∈ x, o ∈ d.space.obs) :
    ∃ d', d.value l = .ok (⟨(l.getD d.space.obs).length, table (l.getD d.space.obs) pts⟩, d') := by
  have := h.2 [l] (by intro x hx; exact hl x (List.mem_singleton.1 hx).symm)
  simp only [Data.readAll, bind_eq_ok, List.map_cons, List.map_nil] at this
  obtain ⟨⟨t, d'⟩, h1, r, h2, h3⟩ := this
  cases h2
  simp only [except_pure, Except.ok.injEq, List.cons.injEq, and_true] at h3
  subst h3
  exact ⟨d', h1⟩

theorem fromTensor_guaranteed {s : DSpace} (hs : s.Proper) {pts : List (String → Rat)} {w : Option (List Rat)}
    (hw : Weighted pts w) :
    ∃ d, Data.fromTensor s ⟨s.obs.length, table s.obs pts⟩ w true = .ok d ∧ d.space = s ∧ Inv d pts w := by
  obtain ⟨t, m, h1, h2⟩ := holds_fromTensor s.obs pts
  refine ⟨⟨s, .tensor t m, w⟩, ?_, rfl, hs, h2, rfl, hw⟩
  simp [Data.fromTensor, h1, Data.make]

end Zfit.Dat
