import Verif.Data.ConcatProps
import Verif.Data.ConcatObsModel

/-!
# Property C307: the observables and limits given to `concat` (see /verif/properties.jsonl)
-/

namespace Zfit.Dat

open Zfit

theorem zip_map_all {α : Type} (l : List String) (f : String → α) (P : String × α → Bool) :
    (l.zip (l.map f)).all P = l.all (fun o => P (o, f o)) := by
  induction l with
  | nil => rfl
  | cons a l ih => simp [ih]

theorem map_getD_idxOf {α : Type} {obs : List String} {b : List α} (hn : obs.Nodup) (hb : b.length = obs.length) (a : α) :
    obs.map (fun o => b.getD (obs.idxOf o) a) = b := by
  apply List.ext_getElem
  · simp [hb]
  · intro i h1 h2
    simp only [List.length_map] at h1
    simp only [List.getElem_map]
    rw [hn.idxOf_getElem]
    simp [h2]

/-- Looking up all observables in another order gives the same limits. -/
theorem withObs_permuted {s : DSpace} (hs : s.Proper) {l : List String} (hl : l.Nodup) (hset : ∀ o, o ∈ l ↔ o ∈ s.obs) :
    ∃ s', s.withObs l = .ok s' ∧ s'.obs = l ∧ s'.Proper ∧ ∀ p, s'.contains p = s.contains p := by
  have hne : l ≠ [] := by
    obtain ⟨o, os, ho⟩ := List.exists_cons_of_ne_nil hs.1
    have : o ∈ l := (hset o).2 (by simp [ho])
    exact List.ne_nil_of_mem this
  have hkept : l.filter (· ∈ s.obs) = l := by
    rw [List.filter_eq_self]
    intro o ho
    simpa using (hset o).1 ho
  have hany : l.any (· ∈ s.obs) = true := by
    obtain ⟨o, os, rfl⟩ := List.exists_cons_of_ne_nil hne
    simp [(hset o).1 (by simp)]
  refine ⟨_, by unfold DSpace.withObs; rw [if_neg (by simp [hany])], hkept, ⟨?_, ?_, ?_⟩, ?_⟩
  · simpa only [hkept] using hne
  · simpa only [hkept] using hl
  · intro ls hls b hb
    simp only [hkept, Option.map_eq_some_iff] at hls
    obtain ⟨ls', -, rfl⟩ := hls
    obtain ⟨b', -, rfl⟩ := List.mem_map.1 hb
    simp [hkept]
  · intro p
    unfold DSpace.contains
    simp only [hkept]
    cases h : s.lims with
    | none => rfl
    | some ls =>
      simp only [Option.map_some, List.any_map]
      have key : ∀ b ∈ ls, ((l.zip (l.map (fun o => b.getD (s.obs.idxOf o) (0, 0)))).all
          (fun e => decide (e.2.1 ≤ p e.1) && decide (p e.1 ≤ e.2.2))) =
          ((s.obs.zip b).all (fun e => decide (e.2.1 ≤ p e.1) && decide (p e.1 ≤ e.2.2))) := by
        intro b hb
        rw [zip_map_all]
        conv_rhs => rw [← map_getD_idxOf hs.2.1 (hs.2.2 ls h b hb) (0, 0)]
        rw [zip_map_all, Bool.eq_iff_iff, List.all_eq_true, List.all_eq_true]
        exact ⟨fun h o ho => h o ((hset o).2 ho), fun h o ho => h o ((hset o).1 ho)⟩
      rw [Bool.eq_iff_iff, List.any_eq_true, List.any_eq_true]
      constructor
      · rintro ⟨b, hb, h⟩
        exact ⟨b, hb, by rw [← key b hb]; exact h⟩
      · rintro ⟨b, hb, h⟩
        exact ⟨b, hb, by rw [← key b hb] at h; exact h⟩

/-- The weights of all the events: those of datasets without weights count one if another dataset has weights. -/
def allWeights (L : List Shown) : Option (List Rat) :=
  if L.any (·.w.isSome) then some (L.flatMap (fun e => e.w.getD (List.replicate e.pts.length 1))) else none

theorem concat_index_in (L : List Shown) (first : Shown) (rest : List Shown) (hL : L = first :: rest) (arg : ObsArg)
    (s : DSpace) (hs : s.Proper)
    (harg : arg.indexSpace first.data = .ok s)
    (hobs : ∀ e ∈ L, ∀ o, o ∈ s.obs ↔ o ∈ e.data.space.obs) :
    ∃ d, concatIndexObs (L.map (·.data)) arg = .ok d ∧ d.space = s ∧ d.Shows (L.flatMap (·.pts)) (allWeights L) := by
  have hval : ∀ e ∈ L, ∃ d', e.data.value (some s.obs) = .ok (⟨s.obs.length, table s.obs e.pts⟩, d') := by
    intro e he
    exact Shows.read e.shows' (some s.obs) (by
      rintro x ⟨⟩
      exact ⟨hs.1, fun o ho => (hobs e he o).1 ho⟩)
  choose f hf using hval
  let g : Data → Tensor × Data := fun d => match d.value (some s.obs) with
    | .ok r => r
    | .error _ => (⟨0, []⟩, d)
  have hvals : (L.map (·.data)).mapM (fun d => d.value (some s.obs)) = .ok ((L.map (·.data)).map g) := by
    apply mapM_ok_of_forall
    intro d hd
    obtain ⟨e, he, rfl⟩ := List.mem_map.1 hd
    simp [g, hf e he]
  have hrows : ((L.map (·.data)).map g).map (fun v => v.1.rows) = L.map (fun e => table s.obs e.pts) := by
    simp only [List.map_map]
    apply List.map_congr_left
    intro e he
    simp [g, hf e he]
  have hwts : ((L.map (·.data)).zip ((L.map (·.data)).map g)).map (fun p => weightsOrOnes p.1 p.2.1.rows.length) =
      L.map (fun e => e.w.getD (List.replicate e.pts.length 1)) := by
    rw [List.map_map, List.zip_map', List.map_map]
    apply List.map_congr_left
    intro e he
    simp [g, hf e he, weightsOrOnes, table_length, e.shows'.1]
  have hany : (L.map (·.data)).any (fun d => d.weights.isSome) = L.any (·.w.isSome) := by
    rw [List.any_map]
    congr 1
    funext e
    simp [e.shows'.1]
  have hall : (L.map (·.data)).all (fun d => sameSet s.obs d.space.obs) = true := by
    rw [List.all_eq_true]
    intro d hd
    obtain ⟨e, he, rfl⟩ := List.mem_map.1 hd
    exact sameSet_iff.2 (hobs e he)
  have hLd : L.map (·.data) = first.data :: rest.map (·.data) := by simp [hL]
  have hmain : concatIndexObs (L.map (·.data)) arg = Data.fromTensor s
      ⟨s.obs.length, table s.obs (L.flatMap (·.pts))⟩ (allWeights L) true := by
    unfold concatIndexObs
    rw [hLd]
    simp only
    rw [harg, except_bind_ok, ← hLd, if_neg (by simp [hall]), hvals, except_bind_ok, hrows, hwts, hany, table_flatMap,
      ← List.flatMap_def]
    rfl
  have hw : Weighted (L.flatMap (·.pts)) (allWeights L) := by
    unfold allWeights
    split
    · exact weights_flatMap L
    · rintro l ⟨⟩
  obtain ⟨d, h1, h2, h3⟩ := fromTensor_guaranteed hs hw
  exact ⟨d, by rw [hmain, h1], h2, h3.shows⟩

/-- C307, names along the index: the observables in the order given, all the events with their weights, the limits of the first
dataset. -/
theorem concat_index_names (L : List Shown) (first : Shown) (rest : List Shown) (hL : L = first :: rest) (l : List String)
    (hl : l.Nodup) (hobs : ∀ e ∈ L, ∀ o, o ∈ l ↔ o ∈ e.data.space.obs) :
    ∃ d, concatIndexObs (L.map (·.data)) (.names l) = .ok d ∧ d.space.obs = l ∧
      (∀ p, d.space.contains p = first.data.space.contains p) ∧ d.Shows (L.flatMap (·.pts)) (allWeights L) := by
  obtain ⟨s', h1, h2, h3, h4⟩ := withObs_permuted first.proper hl (hobs first (by simp [hL]))
  obtain ⟨d, g1, g2, g3⟩ := concat_index_in L first rest hL (.names l) s' h3 h1 (by rw [h2]; exact hobs)
  exact ⟨d, g1, by rw [g2, h2], by rw [g2]; exact h4, g3⟩

/-- C307, a space along the index: if all the events are inside, the result has them, with their weights, in the space given.  Missing:
events outside, which are kept although documented to be removed (`concat_index_space_violated`). -/
theorem concat_index_space_partial (L : List Shown) (hne : L ≠ []) (s : DSpace) (hs : s.Proper)
    (hobs : ∀ e ∈ L, ∀ o, o ∈ s.obs ↔ o ∈ e.data.space.obs) (hin : ∀ e ∈ L, ∀ p ∈ e.pts, s.contains p = true) :
    ∃ d, concatIndexObs (L.map (·.data)) (.space s) = .ok d ∧ d.space = s ∧
      d.Shows ((L.flatMap (·.pts)).filter s.contains) (keptWeights s.contains (L.flatMap (·.pts)) (allWeights L)) := by
  obtain ⟨first, rest, hL⟩ := List.exists_cons_of_ne_nil hne
  obtain ⟨d, g1, g2, g3⟩ := concat_index_in L first rest hL (.space s) s hs rfl hobs
  have hall : ∀ p ∈ L.flatMap (·.pts), s.contains p = true := by
    intro p hp
    obtain ⟨e, he, hp⟩ := List.mem_flatMap.1 hp
    exact hin e he p hp
  have hf : (L.flatMap (·.pts)).filter s.contains = L.flatMap (·.pts) := List.filter_eq_self.2 hall
  have hw : Weighted (L.flatMap (·.pts)) (allWeights L) := by
    unfold allWeights
    split
    · exact weights_flatMap L
    · rintro l ⟨⟩
  have hk : keptWeights s.contains (L.flatMap (·.pts)) (allWeights L) = allWeights L := by
    unfold keptWeights
    cases h : allWeights L with
    | none => rfl
    | some w =>
      simp only [Option.map_some, Option.some.injEq]
      rw [List.filter_eq_self.2, List.map_snd_zip (by rw [hw w h])]
      intro a ha
      exact hall a.1 (List.of_mem_zip (a := a.1) (b := a.2) ha).1
  exact ⟨d, g1, g2, by rw [hf, hk]; exact g3⟩

/-- C307 is violated by a space along the index: the data made with it from one array is cut, the joined data is not, and has events
outside its own limits. -/
theorem concat_index_space_violated :
    ∃ a b c e : Data, Data.fromTensor ⟨["x"], none⟩ ⟨1, [[1]]⟩ none false = .ok a ∧
      Data.fromTensor ⟨["x"], none⟩ ⟨1, [[5]]⟩ none false = .ok b ∧
      concatIndexObs [a, b] (.space ⟨["x"], some [[(0, 2)]]⟩) = .ok c ∧ c.space = ⟨["x"], some [[(0, 2)]]⟩ ∧
      c.readAll [none] = .ok [⟨1, [[1], [5]]⟩] ∧
      Data.fromTensor ⟨["x"], some [[(0, 2)]]⟩ ⟨1, [[1], [5]]⟩ none false = .ok e ∧ e.readAll [none] = .ok [⟨1, [[1]]⟩] := by
  refine ⟨⟨⟨["x"], none⟩, .tensor ⟨1, [[1]]⟩ [0], none⟩, ⟨⟨["x"], none⟩, .tensor ⟨1, [[5]]⟩ [0], none⟩,
    ⟨⟨["x"], some [[(0, 2)]]⟩, .tensor ⟨1, [[1], [5]]⟩ [0], none⟩,
    ⟨⟨["x"], some [[(0, 2)]]⟩, .tensor ⟨1, [[1]]⟩ [0], none⟩, ?_⟩
  decide +kernel

/-- C307, a space along the observables: the observables in the order given and the events inside the limits given, with their weights.
Event `i` has in each observable the value of event `i` of the dataset it comes from. -/
theorem concat_obs_space (L : List Shown) (first : Shown) (rest : List Shown) (hL : L = first :: rest)
    (hn : (L.flatMap (·.data.space.obs)).Nodup) (n : Nat) (hlen : ∀ e ∈ L, e.pts.length = n)
    (hlim : (∀ e ∈ L, e.data.space.lims = none) ∨ (∀ e ∈ L, e.data.space.lims ≠ none))
    (hten : ∃ e ∈ L, ∃ t m, e.data.ds = .tensor t m) (arg : ObsArg) (hs : arg.toSpace.Proper)
    (hset : ∀ o, o ∈ arg.toSpace.obs ↔ ∃ e ∈ L, o ∈ e.data.space.obs) :
    ∃ d pts, concatObsIn (L.map (·.data)) arg = .ok d ∧ d.space = arg.toSpace ∧
      pts.length = n ∧ (∀ e ∈ L, ∀ o ∈ e.data.space.obs, pts.map (fun p => p o) = e.pts.map (fun p => p o)) ∧
      d.Shows (pts.filter arg.toSpace.contains) (keptWeights arg.toSpace.contains pts
        (if L.any (·.w.isSome) then some ((List.range n).map (jointWeight L)) else none)) := by
  obtain ⟨d, pts, h1, h2, -, h4, h5, h6, h7⟩ := concat_obs_inv L first rest hL hn n hlen hlim hten
  have hsub : ∀ o ∈ arg.toSpace.obs, o ∈ d.space.obs := by
    intro o ho
    rw [h2, List.mem_flatMap]
    exact (hset o).1 ho
  obtain ⟨s2, e1, -⟩ := withObs_all (s := d.space) hs.1 hsub
  obtain ⟨ds, e2, e3, e4⟩ := h6.select hs.1 hsub
  obtain ⟨idx, e5, e6⟩ := bind_eq_ok.1 e2
  obtain ⟨t2, m2, rfl⟩ := e4 h7
  obtain ⟨d2, e7, e8, e9, -⟩ := make_tensor_inv hs e3 h6.2.2.2
  have hLd : L.map (·.data) = first.data :: rest.map (·.data) := by simp [hL]
  have hall : (L.map (·.data)).flatMap (fun d => d.space.obs) = L.flatMap (·.data.space.obs) := by rw [List.flatMap_map]
  have hsame : sameSet arg.toSpace.obs (L.flatMap (·.data.space.obs)) = true := by
    rw [sameSet_iff]
    intro o
    rw [hset o, List.mem_flatMap]
  refine ⟨d2, pts, ?_, e8, h4, h5, e9.shows⟩
  unfold concatObsIn
  rw [hLd]
  simp only
  rw [← hLd, hall, if_neg (by simpa using hn), if_neg (by simp [hsame]), h1]
  simp only [except_bind_ok, Data.withSpace, e1, e5, e6, h6.2.2.1, e7]

/-- C307 is violated by names along the observables: they give the order of the columns, but the limits of the datasets are lost; along
the index they are kept (`concat_index_names`). -/
theorem concat_obs_names_limits_violated :
    ∃ a b c c' : Data, Data.fromTensor ⟨["x"], some [[(0, 2)]]⟩ ⟨1, [[1]]⟩ none false = .ok a ∧
      Data.fromTensor ⟨["y"], some [[(0, 3)]]⟩ ⟨1, [[2]]⟩ none false = .ok b ∧
      concatObs [a, b] = .ok c ∧ c.space = ⟨["x", "y"], some [[(0, 2), (0, 3)]]⟩ ∧
      concatObsIn [a, b] (.names ["x", "y"]) = .ok c' ∧ c'.space = ⟨["x", "y"], none⟩ := by
  refine ⟨⟨⟨["x"], some [[(0, 2)]]⟩, .tensor ⟨1, [[1]]⟩ [0], none⟩, ⟨⟨["y"], some [[(0, 3)]]⟩, .tensor ⟨1, [[2]]⟩ [0], none⟩,
    ⟨⟨["x", "y"], some [[(0, 2), (0, 3)]]⟩, .tensor ⟨2, [[1, 2]]⟩ [0, 1], none⟩,
    ⟨⟨["x", "y"], none⟩, .tensor ⟨2, [[1, 2]]⟩ [0, 1], none⟩, ?_⟩
  decide +kernel

/-- C307, refused: along the observables, observables that are not those of the datasets; along the index, a space with other observables
than a dataset, and names that leave out an observable. -/
theorem concat_obs_arg_errors :
    (∀ (L : List Data) (arg : ObsArg) (o : String), L ≠ [] → ¬ (o ∈ arg.toSpace.obs ↔ ∃ d ∈ L, o ∈ d.space.obs) →
      concatObsIn L arg = .error .obsIncompatible) ∧
    (∀ (L : List Data) (s : DSpace) (d : Data) (o : String), d ∈ L → ¬ (o ∈ s.obs ↔ o ∈ d.space.obs) →
      concatIndexObs L (.space s) = .error .valueError) ∧
    (∀ (L : List Data) (l : List String) (d : Data) (o : String), d ∈ L → o ∈ d.space.obs → o ∉ l →
      ∀ c, concatIndexObs L (.names l) ≠ .ok c) := by
  refine ⟨?_, ?_, ?_⟩
  · intro L arg o hne h
    obtain ⟨a, as, rfl⟩ := List.exists_cons_of_ne_nil hne
    unfold concatObsIn
    simp only
    split
    · rfl
    · rw [if_pos]
      · rfl
      · intro hall
        apply h
        rw [sameSet_iff.1 hall o, List.mem_flatMap]
  · intro L s d o hd h
    obtain ⟨a, as, rfl⟩ := List.exists_cons_of_ne_nil (List.ne_nil_of_mem hd)
    unfold concatIndexObs
    simp only [ObsArg.indexSpace, except_bind_ok]
    rw [if_pos]
    · rfl
    · intro hall
      rw [List.all_eq_true] at hall
      exact h (sameSet_iff.1 (hall d hd) o)
  · intro L l d o hd ho hl c hc
    obtain ⟨a, as, rfl⟩ := List.exists_cons_of_ne_nil (List.ne_nil_of_mem hd)
    unfold concatIndexObs at hc
    simp only [bind_eq_ok] at hc
    obtain ⟨s, hs, hc⟩ := hc
    split at hc
    · cases hc
    · rename_i hall
      rw [Decidable.not_not, List.all_eq_true] at hall
      have hos := (sameSet_iff.1 (hall d hd) o).2 ho
      simp only [ObsArg.indexSpace] at hs
      unfold DSpace.withObs at hs
      split at hs
      · cases hs
      · cases hs
        exact hl (List.mem_filter.1 hos).1

/-- C307 is violated along the index by a name that no dataset has: it is dropped silently, along the observables it is refused. -/
theorem concat_index_unknown_name_violated :
    ∃ a c : Data, Data.fromTensor ⟨["x"], none⟩ ⟨1, [[1]]⟩ none false = .ok a ∧
      concatIndexObs [a] (.names ["x", "mass"]) = .ok c ∧ c.space.obs = ["x"] := by
  refine ⟨⟨⟨["x"], none⟩, .tensor ⟨1, [[1]]⟩ [0], none⟩, ⟨⟨["x"], none⟩, .tensor ⟨1, [[1]]⟩ [0], none⟩, ?_⟩
  decide +kernel

/-- Non-vacuity: two datasets joined along the observables, in another order and cut, with weights. -/
example :
    ((Data.fromTensor ⟨["x", "y"], none⟩ ⟨2, [[1, 10], [2, 20]]⟩ (some [5, 6]) false).bind (fun a =>
      (Data.fromTensor ⟨["z"], none⟩ ⟨1, [[100], [200]]⟩ (some [2, 3]) false).bind (fun b =>
        (concatObsIn [a, b] (.space ⟨["z", "x", "y"], some [[(150, 300), (0, 5), (0, 50)]]⟩)).bind (fun c =>
          (c.value none).map (fun v => (v.1.rows, c.weights)))))) = .ok ([[200, 2, 20]], some [18]) := by
  decide +kernel

/-- Non-vacuity: joined along the index with the columns in a third order. -/
example :
    ((Data.fromTensor ⟨["x", "y", "z"], some [[(0, 5), (0, 50), (0, 500)]]⟩ ⟨3, [[1, 10, 100]]⟩ none false).bind (fun a =>
      (Data.fromTensor ⟨["y", "x", "z"], none⟩ ⟨3, [[20, 2, 200]]⟩ (some [2]) false).bind (fun b =>
        (concatIndexObs [a, b] (.names ["z", "x", "y"])).bind (fun c =>
          (c.value none).map (fun v => (v.1.rows, c.weights, c.space)))))) =
      .ok ([[100, 1, 10], [200, 2, 20]], some [1, 2], ⟨["z", "x", "y"], some [[(0, 500), (0, 5), (0, 50)]]⟩) := by
  decide +kernel

end Zfit.Dat
