import Verif.Data.Props

/-!
# Property C20: concatenation of datasets (see /verif/properties.jsonl)

A dataset is described by what it shows (Spec.lean): its events and its weights.
-/

namespace Zfit.Dat

open Zfit

/-- A dataset together with what it shows. -/
structure Shown where
  data : Data
  pts : List (String → Rat)
  w : Option (List Rat)
  proper : data.space.Proper
  shows' : data.Shows pts w
  weighted : Weighted pts w

theorem sameSet_iff {a b : List String} : sameSet a b = true ↔ ∀ o, o ∈ a ↔ o ∈ b := by
  simp only [sameSet, Bool.and_eq_true, List.all_eq_true, decide_eq_true_eq]
  exact ⟨fun h o => ⟨h.1 o, h.2 o⟩, fun h => ⟨fun o => (h o).1, fun o => (h o).2⟩⟩

theorem table_flatMap {α : Type} (obs : List String) (L : List α) (f : α → List (String → Rat)) :
    (L.map (fun e => table obs (f e))).flatten = table obs (L.flatMap f) := by
  unfold table
  rw [List.map_flatMap, List.flatMap_def]

theorem weights_flatMap (L : List Shown) :
    Weighted (L.flatMap (·.pts)) (some (L.flatMap (fun e => e.w.getD (List.replicate e.pts.length 1)))) := by
  rintro l ⟨⟩
  simp only [List.length_flatMap]
  congr 1
  apply List.map_congr_left
  intro e _
  cases h : e.w with
  | none => simp
  | some v => simpa [h] using e.weighted v h

/-- C20, along the index.  Datasets with the same observables (in any order) are joined to the events of all of them in
order; every event keeps its weight, events of datasets without weights count one if another dataset has weights. -/
theorem concat_index_events (L : List Shown) (first : Shown) (rest : List Shown) (hL : L = first :: rest)
    (hobs : ∀ e ∈ L, ∀ o, o ∈ first.data.space.obs ↔ o ∈ e.data.space.obs) :
    ∃ d, concatIndex (L.map (·.data)) = .ok d ∧ d.space = first.data.space ∧
      d.Shows (L.flatMap (·.pts))
        (if L.any (·.w.isSome) then some (L.flatMap (fun e => e.w.getD (List.replicate e.pts.length 1))) else none) := by
  have hval : ∀ e ∈ L, ∃ d', e.data.value (some first.data.space.obs) =
      .ok (⟨first.data.space.obs.length, table first.data.space.obs e.pts⟩, d') := by
    intro e he
    exact Shows.read e.shows' (some first.data.space.obs) (by
      rintro x ⟨⟩
      exact ⟨first.proper.1, fun o ho => (hobs e he o).1 ho⟩)
  choose f hf using hval
  let g : Data → Tensor × Data := fun d => match d.value (some first.data.space.obs) with
    | .ok r => r
    | .error _ => (⟨0, []⟩, d)
  have hvals : (L.map (·.data)).mapM (fun d => d.value (some first.data.space.obs)) = .ok ((L.map (·.data)).map g) := by
    apply mapM_ok_of_forall
    intro d hd
    obtain ⟨e, he, rfl⟩ := List.mem_map.1 hd
    simp [g, hf e he]
  have hrows : ((L.map (·.data)).map g).map (fun v => v.1.rows) = L.map (fun e => table first.data.space.obs e.pts) := by
    simp only [List.map_map]
    apply List.map_congr_left
    intro e he
    simp [g, hf e he]
  have hwts : ((L.map (·.data)).zip ((L.map (·.data)).map g)).map (fun p => weightsOrOnes p.1 p.2.1.rows.length) =
      L.map (fun e => e.w.getD (List.replicate e.pts.length 1)) := by
    rw [List.map_map, List.zip_map', List.map_map]
    apply List.map_congr_left
    intro e he
    simp [g, hf e he, weightsOrOnes, table_length, e.shows'.1]
  have hany : (L.map (·.data)).any (fun d => d.weights.isSome) = L.any (·.w.isSome) := by
    rw [List.any_map]
    congr 1
    funext e
    simp [e.shows'.1]
  have hall : (L.map (·.data)).all (fun d => sameSet first.data.space.obs d.space.obs) = true := by
    rw [List.all_eq_true]
    intro d hd
    obtain ⟨e, he, rfl⟩ := List.mem_map.1 hd
    exact sameSet_iff.2 (hobs e he)
  have hLd : L.map (·.data) = first.data :: rest.map (·.data) := by simp [hL]
  have hmain : concatIndex (L.map (·.data)) = Data.fromTensor first.data.space
      ⟨first.data.space.obs.length, table first.data.space.obs (L.flatMap (·.pts))⟩
      (if L.any (·.w.isSome) then some (L.flatMap (fun e => e.w.getD (List.replicate e.pts.length 1))) else none)
      true := by
    unfold concatIndex
    rw [hLd]
    simp only
    rw [← hLd, if_neg (by simp [hall]), hvals, except_bind_ok, hrows, hwts, hany, table_flatMap, ← List.flatMap_def]
  have hw : Weighted (L.flatMap (·.pts))
      (if L.any (·.w.isSome) then some (L.flatMap (fun e => e.w.getD (List.replicate e.pts.length 1))) else none) := by
    split
    · exact weights_flatMap L
    · rintro l ⟨⟩
  obtain ⟨d, h1, h2, h3⟩ := fromTensor_guaranteed first.proper hw
  exact ⟨d, by rw [hmain, h1], h2, h3.shows⟩

/-- C20, error branches: nothing to concatenate, or other observables. -/
theorem concat_index_errors :
    concatIndex [] = .error .valueError ∧
    ∀ (L : List Data) (first : Data) (rest : List Data) (d : Data) (o : String), L = first :: rest → d ∈ L →
      ¬ (o ∈ first.space.obs ↔ o ∈ d.space.obs) → concatIndex L = .error .valueError := by
  refine ⟨rfl, ?_⟩
  rintro L first rest d o rfl hd ho
  unfold concatIndex
  simp only
  rw [if_pos]
  intro hall
  rw [List.all_eq_true] at hall
  exact ho (sameSet_iff.1 (hall d hd) o)

/-- The concatenated data takes the limits of the first dataset without checking the others: it contains events outside
its own limits, and they vanish when the (unchanged) observables are asked for again. -/
theorem concat_limits_violated :
    ∃ a b c c' : Data, Data.fromTensor ⟨["x"], some [[(0, 1)]]⟩ ⟨1, [[1]]⟩ none false = .ok a ∧
      Data.fromTensor ⟨["x"], some [[(2, 3)]]⟩ ⟨1, [[2]]⟩ none false = .ok b ∧ concatIndex [a, b] = .ok c ∧
      c.space = ⟨["x"], some [[(0, 1)]]⟩ ∧ c.readAll [none] = .ok [⟨1, [[1], [2]]⟩] ∧
      c.withObs ["x"] = .ok c' ∧ c'.readAll [none] = .ok [⟨1, [[1]]⟩] := by
  refine ⟨⟨⟨["x"], some [[(0, 1)]]⟩, .tensor ⟨1, [[1]]⟩ [0], none⟩, ⟨⟨["x"], some [[(2, 3)]]⟩, .tensor ⟨1, [[2]]⟩ [0], none⟩,
    ⟨⟨["x"], some [[(0, 1)]]⟩, .tensor ⟨1, [[1], [2]]⟩ [0], none⟩,
    ⟨⟨["x"], some [[(0, 1)]]⟩, .tensor ⟨1, [[1]]⟩ [0], none⟩, ?_⟩
  decide +kernel

/-- Non-vacuity: columns in another order, one dataset with and one without weights. -/
example :
    ((Data.fromTensor ⟨["x", "y"], none⟩ ⟨2, [[1, 10]]⟩ (some [5]) false).bind (fun a =>
      (Data.fromMapping ⟨["y", "x"], none⟩ [("x", [2, 3]), ("y", [20, 30])] none false).bind (fun b =>
        (concatIndex [a, b]).bind (fun c => (c.value none).map (fun v => (v.1.rows, c.weights)))))) =
    .ok ([[1, 10], [2, 20], [3, 30]], some [5, 1, 1]) := by decide +kernel

/-! ## Along the observables -/

theorem contains_mul {a b c : DSpace} (ha : a.Proper) (hb : b.Proper) (hd : ∀ o ∈ a.obs, o ∉ b.obs)
    (h : a.mul b = .ok c) : c.Proper ∧ c.obs = a.obs ++ b.obs ∧ ∀ p, c.contains p = (a.contains p && b.contains p) := by
  unfold DSpace.mul at h
  have hnd : (a.obs ++ b.obs).Nodup := by
    rw [List.nodup_append]
    exact ⟨ha.2.1, hb.2.1, fun x hx y hy => by rintro rfl; exact hd x hx hy⟩
  have hne : a.obs ++ b.obs ≠ [] := by simp [ha.1]
  split at h
  · rename_i h1 h2
    cases h
    refine ⟨⟨hne, hnd, by rintro ls ⟨⟩⟩, rfl, fun p => by simp [DSpace.contains, h1, h2]⟩
  · rename_i la lb h1 h2
    cases h
    refine ⟨⟨hne, hnd, ?_⟩, rfl, fun p => ?_⟩
    · rintro ls ⟨⟩ x hx
      obtain ⟨y, hy, hx⟩ := List.mem_flatMap.1 hx
      obtain ⟨z, hz, rfl⟩ := List.mem_map.1 hx
      simp [ha.2.2 la h1 y hy, hb.2.2 lb h2 z hz]
    · have key : ∀ y ∈ la, ∀ z, (((a.obs ++ b.obs).zip (y ++ z)).all
          (fun e => decide (e.2.1 ≤ p e.1) && decide (p e.1 ≤ e.2.2))) =
          ((a.obs.zip y).all (fun e => decide (e.2.1 ≤ p e.1) && decide (p e.1 ≤ e.2.2)) &&
           (b.obs.zip z).all (fun e => decide (e.2.1 ≤ p e.1) && decide (p e.1 ≤ e.2.2))) := by
        intro y hy z
        rw [List.zip_append (by rw [ha.2.2 la h1 y hy]), List.all_append]
      rw [Bool.eq_iff_iff]
      simp only [DSpace.contains, h1, h2, List.any_eq_true, Bool.and_eq_true]
      constructor
      · rintro ⟨x, hx, hall⟩
        obtain ⟨y, hy, hx⟩ := List.mem_flatMap.1 hx
        obtain ⟨z, hz, rfl⟩ := List.mem_map.1 hx
        rw [key y hy z, Bool.and_eq_true] at hall
        exact ⟨⟨y, hy, hall.1⟩, ⟨z, hz, hall.2⟩⟩
      · rintro ⟨⟨y, hy, h1'⟩, ⟨z, hz, h2'⟩⟩
        refine ⟨y ++ z, List.mem_flatMap.2 ⟨y, hy, List.mem_map.2 ⟨z, hz, rfl⟩⟩, ?_⟩
        rw [key y hy z, h1', h2']
        rfl
  · cases h

theorem fold_mul (rest : List DSpace) (s : DSpace) (hs : s.Proper) (hr : ∀ t ∈ rest, t.Proper)
    (hd : (s.obs ++ rest.flatMap (·.obs)).Nodup)
    (hl : (s.lims = none ∧ ∀ t ∈ rest, t.lims = none) ∨ (s.lims ≠ none ∧ ∀ t ∈ rest, t.lims ≠ none)) :
    ∃ c, rest.foldlM (fun s d => s.mul d) s = .ok c ∧ c.Proper ∧ c.obs = s.obs ++ rest.flatMap (·.obs) ∧
      ∀ p, c.contains p = (s.contains p && rest.all (·.contains p)) := by
  induction rest generalizing s with
  | nil => exact ⟨s, rfl, hs, by simp, by simp⟩
  | cons t rest ih =>
    have hmul : ∃ c, s.mul t = .ok c ∧ ((c.lims = none) ↔ s.lims = none) := by
      unfold DSpace.mul
      rcases hl with ⟨h1, h2⟩ | ⟨h1, h2⟩
      · rw [h1, h2 t (by simp)]; exact ⟨_, rfl, by simp⟩
      · obtain ⟨a, ha⟩ := Option.ne_none_iff_exists'.1 h1
        obtain ⟨b, hb⟩ := Option.ne_none_iff_exists'.1 (h2 t (by simp))
        rw [ha, hb]; exact ⟨_, rfl, by simp⟩
    obtain ⟨c, hc, hcl⟩ := hmul
    simp only [List.flatMap_cons] at hd
    have hdisj : ∀ o ∈ s.obs, o ∉ t.obs := by
      intro o h1 h2
      rw [List.nodup_append] at hd
      exact hd.2.2 o h1 o (by simp [h2]) rfl
    obtain ⟨p1, p2, p3⟩ := contains_mul hs (hr t (by simp)) hdisj hc
    obtain ⟨c', q1, q2, q3, q4⟩ := ih c p1 (fun x hx => hr x (by simp [hx]))
      (by rw [p2, List.append_assoc]; exact hd) (by
        rcases hl with ⟨h1, h2⟩ | ⟨h1, h2⟩
        · exact .inl ⟨hcl.2 h1, fun x hx => h2 x (by simp [hx])⟩
        · exact .inr ⟨fun hh => h1 (hcl.1 hh), fun x hx => h2 x (by simp [hx])⟩)
    refine ⟨c', ?_, q2, ?_, ?_⟩
    · simp only [List.foldlM_cons, hc, except_bind_ok]; exact q1
    · rw [q3, p2, List.append_assoc]; rfl
    · intro p; rw [q4, p3, Bool.and_assoc]; rfl

/-- The weight of event `i`: the product of the weights it has in the datasets that have weights. -/
def jointWeight (L : List Shown) (i : Nat) : Rat := (L.map (fun e => (e.w.map (·.getD i 1)).getD 1)).prod

theorem prodWeights_eq (ws : List (List Rat)) (w : List Rat) (n : Nat) (hw : w.length = n)
    (h : ∀ v ∈ ws, v.length = n) :
    ws.foldl (fun acc v => List.zipWith (· * ·) acc v) w =
      (List.range n).map (fun i => w.getD i 1 * (ws.map (fun v => v.getD i 1)).prod) := by
  induction ws generalizing w with
  | nil =>
    simp only [List.foldl_nil, List.map_nil, List.prod_nil, mul_one]
    apply List.ext_getElem
    · simp [hw]
    · intro i h1 h2
      simp [h1]
  | cons v ws ih =>
    have hv := h v (by simp)
    simp only [List.foldl_cons]
    rw [ih _ (by simp [hw, hv]) (fun x hx => h x (by simp [hx]))]
    apply List.map_congr_left
    intro i hi
    have hi : i < n := by simpa using hi
    simp [hw, hv, hi, mul_assoc]

theorem jointWeight_filter (L : List Shown) (i : Nat) :
    jointWeight L i = ((L.filterMap (·.w)).map (fun v => v.getD i 1)).prod := by
  unfold jointWeight
  induction L with
  | nil => rfl
  | cons e L ih =>
    cases h : e.w with
    | none =>
      rw [List.map_cons, List.prod_cons, ih, List.filterMap_cons, h]
      simp
    | some v =>
      rw [List.map_cons, List.prod_cons, ih, List.filterMap_cons, h]
      simp

/-- The event `i` of the joint data: each observable from the dataset that has it. -/
def jointPoint (L : List Shown) (i : Nat) : String → Rat := fun o =>
  match L.find? (fun e => decide (o ∈ e.data.space.obs)) with
  | some e => (e.pts.getD i (fun _ => 0)) o
  | none => 0

theorem jointPoint_eq {L : List Shown} (hn : (L.flatMap (·.data.space.obs)).Nodup) {e : Shown} (he : e ∈ L) (i : Nat)
    {o : String} (ho : o ∈ e.data.space.obs) : jointPoint L i o = (e.pts.getD i (fun _ => 0)) o := by
  unfold jointPoint
  induction L with
  | nil => simp at he
  | cons a L ih =>
    simp only [List.flatMap_cons] at hn
    rw [List.nodup_append] at hn
    rcases List.mem_cons.1 he with rfl | he'
    · simp [ho]
    · have : o ∉ a.data.space.obs := by
        intro h
        exact hn.2.2 o h o (List.mem_flatMap.2 ⟨e, he', ho⟩) rfl
      rw [List.find?_cons_of_neg (by simpa using this)]
      exact ih hn.2.1 he'

/-- The result as it is stored. -/
theorem concat_obs_inv (L : List Shown) (first : Shown) (rest : List Shown) (hL : L = first :: rest)
    (hn : (L.flatMap (·.data.space.obs)).Nodup) (n : Nat) (hlen : ∀ e ∈ L, e.pts.length = n)
    (hlim : (∀ e ∈ L, e.data.space.lims = none) ∨ (∀ e ∈ L, e.data.space.lims ≠ none))
    (hten : ∃ e ∈ L, ∃ t m, e.data.ds = .tensor t m) :
    ∃ d pts, concatObs (L.map (·.data)) = .ok d ∧ d.space.obs = L.flatMap (·.data.space.obs) ∧
      (∀ p, d.space.contains p = L.all (·.data.space.contains p)) ∧
      pts.length = n ∧ (∀ e ∈ L, ∀ o ∈ e.data.space.obs, pts.map (fun p => p o) = e.pts.map (fun p => p o)) ∧
      Inv d pts (if L.any (·.w.isSome) then some ((List.range n).map (jointWeight L)) else none) ∧
      ∃ t m, d.ds = .tensor t m := by
  have hval : ∀ e ∈ L, ∃ d', e.data.value none =
      .ok (⟨e.data.space.obs.length, table e.data.space.obs e.pts⟩, d') := by
    intro e he
    exact Shows.read e.shows' none (by rintro x ⟨⟩)
  choose f hf using hval
  let g : Data → Tensor × Data := fun d => match d.value none with
    | .ok r => r
    | .error _ => (⟨0, []⟩, d)
  have hg : ∀ e ∈ L, (g e.data).1 = ⟨e.data.space.obs.length, table e.data.space.obs e.pts⟩ := by
    intro e he; simp [g, hf e he]
  have hvals : (L.map (·.data)).mapM (fun d => d.value none) = .ok ((L.map (·.data)).map g) := by
    apply mapM_ok_of_forall
    intro d hd
    obtain ⟨e, he, rfl⟩ := List.mem_map.1 hd
    simp [g, hf e he]
  have hLd : L.map (·.data) = first.data :: rest.map (·.data) := by simp [hL]
  obtain ⟨c, hc1, hc2, hc3, hc4⟩ := fold_mul (rest.map (·.data.space)) first.data.space first.proper
    (by simp only [List.mem_map, forall_exists_index, and_imp, forall_apply_eq_imp_iff₂]; exact fun e _ => e.proper)
    (by rw [hL] at hn; simpa [List.flatMap_map] using hn)
    (by
      subst hL
      rcases hlim with h | h
      · exact .inl ⟨h first (by simp), by
          simp only [List.mem_map, forall_exists_index, and_imp, forall_apply_eq_imp_iff₂]
          exact fun e he => h e (by simp [he])⟩
      · exact .inr ⟨h first (by simp), by
          simp only [List.mem_map, forall_exists_index, and_imp, forall_apply_eq_imp_iff₂]
          exact fun e he => h e (by simp [he])⟩)
  have hfold : (rest.map (·.data)).foldlM (fun s d => s.mul d.space) first.data.space = .ok c := by
    rw [← hc1, List.foldlM_map, List.foldlM_map]
  have hcobs : c.obs = L.flatMap (·.data.space.obs) := by rw [hc3, hL]; simp [List.flatMap_map]
  have hhead : (((L.map (·.data)).map g).map (fun v => v.1.rows.length)).headD 0 = n := by
    rw [hL]
    simp only [List.map_cons, List.headD_cons]
    rw [hg first (by simp [hL])]
    simpa [table_length] using hlen first (by simp [hL])
  have hallv : ((L.map (·.data)).map g).all (fun v => decide (v.1.rows.length = n)) = true := by
    rw [List.all_eq_true]
    intro v hv
    simp only [List.map_map, List.mem_map, Function.comp] at hv
    obtain ⟨e, he, rfl⟩ := hv
    rw [hg e he]
    simpa [table_length] using hlen e he
  have hrows : (List.range n).map (fun i => ((L.map (·.data)).map g).flatMap (fun v => v.1.rows.getD i [])) =
      table c.obs ((List.range n).map (jointPoint L)) := by
    conv_rhs => rw [table, List.map_map]
    apply List.map_congr_left
    intro i hi
    have hi : i < n := by simpa using hi
    simp only [Function.comp, hcobs, List.map_map, List.flatMap_map, List.map_flatMap]
    rw [List.flatMap_def, List.flatMap_def]
    congr 1
    apply List.map_congr_left
    intro e he
    have hlt : i < e.pts.length := by rw [hlen e he]; exact hi
    rw [hg e he]
    simp only [table, List.getD_eq_getElem?_getD, List.getElem?_map, List.getElem?_eq_getElem hlt, Option.map_some,
      Option.getD_some]
    apply List.map_congr_left
    intro o ho
    rw [jointPoint_eq hn he i ho]
    simp [hlt]
  have hcols : (((L.map (·.data)).map g).map (fun v => v.1.cols)).sum = c.obs.length := by
    rw [hcobs, List.length_flatMap, List.map_map, List.map_map]
    congr 1
    apply List.map_congr_left
    intro e he
    simp [hg e he]
  have hwfm : (L.map (·.data)).filterMap (·.weights) = L.filterMap (·.w) := by
    rw [List.filterMap_map]
    congr 1
    funext e
    exact e.shows'.1
  have hwlen : ∀ v ∈ L.filterMap (·.w), v.length = n := by
    intro v hv
    obtain ⟨e, he, hev⟩ := List.mem_filterMap.1 hv
    rw [e.weighted v hev, hlen e he]
  have hprod : prodWeights ((L.map (·.data)).filterMap (·.weights)) =
      if L.any (·.w.isSome) then some ((List.range n).map (jointWeight L)) else none := by
    rw [hwfm]
    have hj : jointWeight L = fun i => ((L.filterMap (·.w)).map (fun v => v.getD i 1)).prod := by
      funext i; exact jointWeight_filter L i
    rw [hj]
    cases hw : L.filterMap (·.w) with
    | nil =>
      have : L.any (·.w.isSome) = false := by
        rw [List.any_eq_false]
        intro e he
        rw [List.filterMap_eq_nil_iff] at hw
        simp [hw e he]
      simp [this, prodWeights]
    | cons w ws =>
      have : L.any (·.w.isSome) = true := by
        rw [List.any_eq_true]
        have : w ∈ L.filterMap (·.w) := by rw [hw]; simp
        obtain ⟨e, he, hew⟩ := List.mem_filterMap.1 this
        exact ⟨e, he, by simp [hew]⟩
      rw [hw] at hwlen
      simp only [this, if_true, prodWeights]
      rw [prodWeights_eq ws w n (hwlen w (by simp)) (fun v hv => hwlen v (by simp [hv]))]
      simp
  have hmain : concatObs (L.map (·.data)) = Data.fromTensor c ⟨c.obs.length, table c.obs ((List.range n).map (jointPoint L))⟩
      (if L.any (·.w.isSome) then some ((List.range n).map (jointWeight L)) else none) true := by
    unfold concatObs
    rw [hLd]
    simp only
    rw [← hLd, if_neg, if_neg, hvals, except_bind_ok, hfold, except_bind_ok, hhead, if_neg (fun h => h hallv), hrows,
      hcols, hprod]
    · intro hall
      rw [List.all_eq_true] at hall
      obtain ⟨e, he, t, m, htm⟩ := hten
      have := hall e.data (List.mem_map.2 ⟨e, he, rfl⟩)
      rw [htm] at this
      simp at this
    · rw [Decidable.not_not, List.flatMap_map]
      exact hn
  have hww : Weighted ((List.range n).map (jointPoint L))
      (if L.any (·.w.isSome) then some ((List.range n).map (jointWeight L)) else none) := by
    split
    · rintro l ⟨⟩; simp
    · rintro l ⟨⟩
  obtain ⟨d, h1, h2, h3⟩ := fromTensor_guaranteed hc2 hww
  have hten' : ∃ t m, d.ds = .tensor t m := by
    simp only [Data.fromTensor, LDS.fromTensor, Data.make, if_true, bind_eq_ok] at h1
    obtain ⟨ds, hds, hd⟩ := h1
    split at hds
    · cases hds
    · cases hds
      cases hd
      exact ⟨_, _, rfl⟩
  refine ⟨d, (List.range n).map (jointPoint L), by rw [hmain, h1], by rw [h2, hcobs], ?_, by simp, ?_, h3, hten'⟩
  · intro p
    rw [h2, hc4, hL, List.all_cons, List.all_map]
    rfl
  · intro e he o ho
    apply List.ext_getElem
    · simp [hlen e he]
    · intro i h1 h2
      simp only [List.length_map] at h2
      simp only [List.map_map, List.getElem_map, List.getElem_range, Function.comp]
      rw [jointPoint_eq hn he i ho]
      simp [h2]

/-- C20, along the observables.  Datasets without common observables and with the same number of events, all with or all
without limits, at least one not held as columns: the result has all observables in order; event `i` has in each
observable the value of event `i` of the dataset the observable comes from, and as weight the product of the weights of
event `i`; the limits are those of all datasets together. -/
theorem concat_obs_events (L : List Shown) (first : Shown) (rest : List Shown) (hL : L = first :: rest)
    (hn : (L.flatMap (·.data.space.obs)).Nodup) (n : Nat) (hlen : ∀ e ∈ L, e.pts.length = n)
    (hlim : (∀ e ∈ L, e.data.space.lims = none) ∨ (∀ e ∈ L, e.data.space.lims ≠ none))
    (hten : ∃ e ∈ L, ∃ t m, e.data.ds = .tensor t m) :
    ∃ d pts, concatObs (L.map (·.data)) = .ok d ∧ d.space.obs = L.flatMap (·.data.space.obs) ∧
      (∀ p, d.space.contains p = L.all (·.data.space.contains p)) ∧
      pts.length = n ∧ (∀ e ∈ L, ∀ o ∈ e.data.space.obs, pts.map (fun p => p o) = e.pts.map (fun p => p o)) ∧
      d.Shows pts (if L.any (·.w.isSome) then some ((List.range n).map (jointWeight L)) else none) := by
  obtain ⟨d, pts, h1, h2, h3, h4, h5, h6, -⟩ := concat_obs_inv L first rest hL hn n hlen hlim hten
  exact ⟨d, pts, h1, h2, h3, h4, h5, h6.shows⟩

/-- C20, error branches along the observables: nothing given, an observable twice, or different numbers of events. -/
theorem concat_obs_errors :
    concatObs [] = .error .valueError ∧
    (∀ L : List Data, L ≠ [] → ¬ (L.flatMap (·.space.obs)).Nodup → concatObs L = .error .obsIncompatible) ∧
    (∀ (L : List Shown) (a b : Shown), a ∈ L → b ∈ L → a.pts.length ≠ b.pts.length →
      ∀ d, concatObs (L.map (·.data)) ≠ .ok d) := by
  refine ⟨rfl, ?_, ?_⟩
  · intro L hne h
    obtain ⟨a, as, rfl⟩ := List.exists_cons_of_ne_nil hne
    unfold concatObs
    simp only
    rw [if_pos h]
  · intro L a b ha hb hab d hd
    unfold concatObs at hd
    split at hd
    · cases hd
    · split at hd
      · cases hd
      · split at hd
        · cases hd
        · simp only [bind_eq_ok] at hd
          obtain ⟨vals, hv, c, -, hd⟩ := hd
          split at hd
          · cases hd
          · rename_i hall
            rw [Decidable.not_not, List.all_eq_true] at hall
            rw [mapM_ok_iff] at hv
            have key : ∀ e ∈ L, ∃ v ∈ vals, v.1.rows.length = e.pts.length := by
              intro e he
              obtain ⟨d', hd'⟩ := Shows.read e.shows' none (by rintro x ⟨⟩)
              have : e.data.value none ∈ (L.map (·.data)).map (fun d => d.value none) :=
                List.mem_map.2 ⟨e.data, List.mem_map.2 ⟨e, he, rfl⟩, rfl⟩
              rw [hv] at this
              obtain ⟨v, hv1, hv2⟩ := List.mem_map.1 this
              rw [hd'] at hv2
              cases hv2
              exact ⟨_, hv1, by simp [table_length]⟩
            obtain ⟨va, h1, h2⟩ := key a ha
            obtain ⟨vb, h3, h4⟩ := key b hb
            have e1 := hall va h1
            have e2 := hall vb h3
            simp only [decide_eq_true_eq] at e1 e2
            omega

/-- C20 is violated if all datasets are held as columns (created from mappings or data frames): concatenation along the
observables raises an `AttributeError`. -/
theorem concat_obs_columns_violated :
    ∃ a b : Data, Data.fromMapping ⟨["x"], none⟩ [("x", [1, 2])] none false = .ok a ∧
      Data.fromMapping ⟨["y"], none⟩ [("y", [3, 4])] none false = .ok b ∧
      concatObs [a, b] = .error .attributeError := by
  refine ⟨⟨⟨["x"], none⟩, .columns [[1, 2]], none⟩, ⟨⟨["y"], none⟩, .columns [[3, 4]], none⟩, ?_⟩
  decide +kernel

/-- Non-vacuity: two observables and one, both weighted, with limits. -/
example :
    ((Data.fromTensor ⟨["x", "y"], some [[(0, 5), (0, 50)]]⟩ ⟨2, [[1, 10], [2, 20]]⟩ (some [5, 6]) false).bind (fun a =>
      (Data.fromMapping ⟨["z"], some [[(0, 500)]]⟩ [("z", [100, 200])] (some [2, 3]) false).bind (fun b =>
        (concatObs [a, b]).bind (fun c => (c.value (some ["z", "x"])).map (fun v => (v.1.rows, c.weights, c.space)))))) =
    .ok ([[100, 1], [200, 2]], some [10, 18], ⟨["x", "y", "z"], some [[(0, 5), (0, 50), (0, 500)]]⟩) := by
  decide +kernel

end Zfit.Dat
