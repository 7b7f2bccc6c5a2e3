import Verif.Space.Lemmas

/-!
# Properties C01 (for `Space`) and C05 (see /verif/properties.jsonl)

`Picks idx l l'` (Spec.lean): `l'` are the entries of `l` at the positions `idx`.  `inBox lo hi row` (Spec.lean): the
event lies in the closed box.
-/

namespace Zfit.Sp

open Zfit Zfit.Coord

/-! ## C01: limits travel with the coordinates -/

/-- C01 for spaces.  Build a space with rectangular limits (observables, axes or both) and apply any successful chain of
`with_obs`, `with_axes`, `with_coords`, `with_autofill_axes` and `get_subspace`.  There is one list of positions such
that the limits of the result, its observables (if they were never dropped) and its axes (if they were never dropped
or replaced) are the original ones at these positions: the three never come apart. -/
theorem limits_travel (o : Option (List String)) (a : Option (List Int)) (lower upper : List Rat)
    (s s' : Space) (reqs : List SReq) (hs : Space.make o a (.rect lower upper) = .ok s)
    (ho : ∀ l, o = some l → l.Nodup) (ha : ∀ l, a = some l → l.Nodup) (hd : ∀ r ∈ reqs, r.Distinct)
    (hr : MeaningfulChain s reqs) (h : s.applyAll reqs = .ok s') :
    ∃ idx lower' upper', s'.rectLimits = .ok (lower', upper') ∧
      Picks idx lower lower' ∧ Picks idx upper upper' ∧
      ((∀ r ∈ reqs, ¬ r.DropsObs) → ∀ l, o = some l → ∃ l', s'.coords.obs = some l' ∧ Picks idx l l') ∧
      ((∀ r ∈ reqs, ¬ r.DropsAxes) → ∀ l, a = some l → ∃ l', s'.coords.axes = some l' ∧ Picks idx l l') := by
  obtain ⟨hinv, hco, hlen, -⟩ := make_rect_inv ho ha hs
  obtain ⟨idx, lims', hp, hi, h1, h2⟩ := applyAll_step hinv hd hr h
  refine ⟨idx, lims'.map (·.1), lims'.map (·.2), hi.rectLimits, ?_, ?_, ?_, ?_⟩
  · have e := List.map_fst_zip (l₁ := lower) (l₂ := upper) (by omega)
    have := hp.map (·.1)
    rwa [e] at this
  · have e := List.map_snd_zip (l₁ := lower) (l₂ := upper) (by omega)
    have := hp.map (·.2)
    rwa [e] at this
  · rw [hco] at h1; exact h1
  · rw [hco] at h2; exact h2

/-- C01, by name: as long as no request drops the observables, every observable of the result has the limits it had in
the beginning. -/
theorem limits_by_obs (o : List String) (a : Option (List Int)) (lower upper : List Rat)
    (s s' : Space) (reqs : List SReq) (hs : Space.make (some o) a (.rect lower upper) = .ok s)
    (ho : o.Nodup) (ha : ∀ l, a = some l → l.Nodup) (hd : ∀ r ∈ reqs, r.Distinct)
    (hr : MeaningfulChain s reqs) (hk : ∀ r ∈ reqs, ¬ r.DropsObs) (h : s.applyAll reqs = .ok s') :
    ∃ o' lower' upper', s'.coords.obs = some o' ∧ s'.rectLimits = .ok (lower', upper') ∧
      ∀ x ∈ o', x ∈ o ∧ dictGet (o'.zip lower') x = dictGet (o.zip lower) x ∧
        dictGet (o'.zip upper') x = dictGet (o.zip upper) x := by
  obtain ⟨idx, lower', upper', h1, h2, h3, h4, -⟩ :=
    limits_travel (some o) a lower upper s s' reqs hs (by rintro l ⟨⟩; exact ho) ha hd hr h
  obtain ⟨o', ho', hp⟩ := h4 hk o rfl
  obtain ⟨-, hco, hlen, -⟩ := make_rect_inv (o := some o) (by rintro l ⟨⟩; exact ho) ha hs
  have hol : o.length = lower.length := make_rect_length hs
  refine ⟨o', lower', upper', ho', h1, fun x hx => ⟨hp.mem x hx, ?_, ?_⟩⟩
  · exact hp.dictGet ho h2 hol x hx
  · exact hp.dictGet ho h3 (hol.trans hlen) x hx

/-- Non-vacuity: a three dimensional space with axes, reordered by axes, projected and reordered by observables. -/
example :
    (Space.make (some ["x", "y", "z"]) (some [2, 0, 1]) (.rect [0, 10, 20] [1, 11, 21]) >>= fun s =>
      (s.applyAll [.withAxes (some [0, 1, 2]) true false, .subObs ["z", "x"], .withObs (some ["x", "z"]) false true]
        >>= fun s' => (s'.rectLimits).map (fun l => (s'.coords.obs, s'.coords.axes, l)))) =
    .ok (some ["x", "z"], some [2, 1], ([0, 20], [1, 21])) := by decide +kernel

/-- C01 is violated by `with_autofill_axes(overwrite=True)`: for a space with observables x, y at the axes 1, 0, the
axes are renumbered (x is now at axis 0) but the limits by axis are not, so that dropping the observables leaves axis 0
with the limits of y. -/
theorem autofill_overwrite_violated :
    ∃ s s' : Space, Space.make (some ["x", "y"]) (some [1, 0]) (.rect [0, 2] [1, 3]) = .ok s ∧
      s.withAutofillAxes true = .ok s' ∧ s'.coords = ⟨some ["x", "y"], some [0, 1]⟩ ∧
      s'.rectLimits = .ok ([0, 2], [1, 3]) ∧
      (s'.withObs none true true >>= fun t => t.rectLimits) = .ok ([2, 0], [3, 1]) := by
  refine ⟨_, _, rfl, rfl, ?_⟩
  decide +kernel

/-- C01 is also lost when `get_subspace(obs=..)` is asked of a space without observables: the result has no limits at
all (and `limits_are_set` is true of it). -/
theorem subspace_without_obs_violated :
    ∃ s s' : Space, Space.make none (some [0, 1]) (.rect [0, 2] [1, 3]) = .ok s ∧
      s.subspaceObs ["x", "y"] = .ok s' ∧ s'.limValues = [] := by
  refine ⟨_, _, rfl, rfl, ?_⟩
  decide +kernel

/-- C01: limits that name none of the space's own coordinates (given by axis to a space of observables) are refused, never dropped. -/
theorem limits_of_other_kind_refused (o : List String) (c : Zfit.Coord.Coords) (hc : Zfit.Coord.Coords.make (some o) none = .ok c) (hco : c.obs = some o ∧ c.axes = none)
    (d : List (Int × Lim)) (hd : d ≠ []) : Space.make (some o) none (.dict none (some d)) = .error .attributeError := by
  obtain ⟨x, l, rfl⟩ := List.exists_cons_of_ne_nil hd
  unfold Space.make
  rw [hc]
  simp [bind, Except.bind, normaliseDict, hco.1, hco.2, pickOrDerive, deriveDict]

/-- non-vacuity -/
example : Space.make (some ["x"]) none (.dict none (some [(0, .rect 0 1)])) = .error .attributeError := by decide +kernel

/-! ## C05: `inside` and `filter` -/

/-- C05.  For a space with rectangular limits (constructed, and reordered by any chain as in C01) and events with one
entry per dimension, `inside` says of each event whether it lies in the closed box given by the limits of the space. -/
theorem inside_iff_in_box (o : Option (List String)) (a : Option (List Int)) (lower upper : List Rat)
    (s s' : Space) (reqs : List SReq) (hs : Space.make o a (.rect lower upper) = .ok s)
    (ho : ∀ l, o = some l → l.Nodup) (ha : ∀ l, a = some l → l.Nodup) (hd : ∀ r ∈ reqs, r.Distinct)
    (hr : MeaningfulChain s reqs) (h : s.applyAll reqs = .ok s') (rows : List (List Rat))
    (hrow : ∀ row ∈ rows, row.length = s'.coords.nObs) :
    ∃ lower' upper', s'.rectLimits = .ok (lower', upper') ∧
      s'.inside (.mat rows) false = .ok (.perEvent (rows.map (inBox lower' upper'))) ∧
      s'.filter rows false = .ok (rows.filter (inBox lower' upper')) ∧
      (s'.filter rows false >>= fun kept => s'.filter kept false) = s'.filter rows false := by
  obtain ⟨hinv, -, -, -⟩ := make_rect_inv ho ha hs
  obtain ⟨idx, lims', -, hi, -, -⟩ := applyAll_step hinv hd hr h
  have hn := hi.nObs
  have hin : ∀ rows : List (List Rat), (∀ row ∈ rows, row.length = s'.coords.nObs) →
      s'.inside (.mat rows) false =
        .ok (.perEvent (rows.map (inBox (lims'.map (·.1)) (lims'.map (·.2))))) := by
    intro rows hrow
    unfold Space.inside
    have : rows.all (fun r => decide (r.length = s'.coords.nObs)) = true := by
      rw [List.all_eq_true]; intro r hr; simpa using hrow r hr
    simp only [sanitizeX, this, if_true, except_bind_ok, Bool.and_false, Bool.false_eq_true, if_false]
    rw [hi.insideRaw (by intro row hr; rw [hrow row hr, hn])]
    rfl
  have hfil : ∀ rows : List (List Rat), (∀ row ∈ rows, row.length = s'.coords.nObs) →
      s'.filter rows false = .ok (rows.filter (inBox (lims'.map (·.1)) (lims'.map (·.2)))) := by
    intro rows hrow
    unfold Space.filter
    simp [hin rows hrow, booleanMask_map]
  refine ⟨_, _, hi.rectLimits, hin rows hrow, hfil rows hrow, ?_⟩
  rw [hfil rows hrow, except_bind_ok, hfil _ (fun row hr => hrow row (List.mem_filter.1 hr).1)]
  simp

/-- C05.  Filtering a `DataFrame` keeps the rows whose named columns all lie in the limits of the observable of this
name, whatever the order of the columns. -/
theorem filter_frame_by_name (o : List String) (a : Option (List Int)) (lower upper : List Rat)
    (s : Space) (hs : Space.make (some o) a (.rect lower upper) = .ok s) (ho : o.Nodup)
    (ha : ∀ l, a = some l → l.Nodup) (columns : List String) (hsub : ∀ x ∈ o, x ∈ columns)
    (rows : List (List Rat)) :
    ∃ kept, s.filterFrame columns rows false = .ok kept ∧ kept.Sublist rows ∧
      ∀ row ∈ rows, row ∈ kept ↔ ∀ x ∈ o, ∃ lo hi v, dictGet (o.zip lower) x = some lo ∧
        dictGet (o.zip upper) x = some hi ∧ dictGet (columns.zip row) x = some v ∧ lo ≤ v ∧ v ≤ hi := by
  obtain ⟨hinv, hco, hlen, -⟩ := make_rect_inv (o := some o) (by rintro l ⟨⟩; exact ho) ha hs
  have hol : o.length = lower.length := make_rect_length hs
  have hou : o.length = upper.length := hol.trans hlen
  have hrl : s.rectLimits = .ok (lower, upper) := by
    rw [hinv.rectLimits, List.map_fst_zip (by omega), List.map_snd_zip (by omega)]
  unfold Space.filterFrame
  have hany : o.any (fun x => decide (x ∉ columns)) = false := by
    rw [List.any_eq_false]; intro x hx; simpa using hsub x hx
  simp only [Bool.and_false, Bool.false_eq_true, if_false, hco, hany, hrl, except_bind_ok]
  refine ⟨_, rfl, List.filter_sublist, fun row hr => ?_⟩
  simp only [List.mem_filter, hr, true_and, List.all_eq_true]
  constructor
  · intro hall x hx
    obtain ⟨i, hi, hxi⟩ := List.getElem_of_mem hx
    have hil : i < lower.length := by omega
    have hiu : i < upper.length := by omega
    have := hall (x, (lower[i], upper[i])) (by
      rw [List.mem_iff_getElem?]
      refine ⟨i, ?_⟩
      simp [hi, hil, hiu, hxi])
    have hidx : o.idxOf x = i := nodup_getElem?_inj ho (getElem?_idxOf_mem hx) (by
      rw [List.getElem?_eq_getElem hi, hxi])
    simp only at this
    split at this
    · rename_i v hv
      simp only [Bool.and_eq_true, decide_eq_true_eq] at this
      refine ⟨lower[i], upper[i], v, ?_, ?_, hv, this.1, this.2⟩
      · rw [dictGet_zip hol hx, hidx, List.getElem?_eq_getElem hil]
      · rw [dictGet_zip hou hx, hidx, List.getElem?_eq_getElem hiu]
    · cases this
  · intro hall p hp
    obtain ⟨i, hi⟩ := List.mem_iff_getElem?.1 hp
    simp only [List.getElem?_zip_eq_some] at hi
    obtain ⟨h1, h2, h3⟩ := hi
    have hx : p.1 ∈ o := List.mem_of_getElem? h1
    have hidx : o.idxOf p.1 = i := nodup_getElem?_inj ho (getElem?_idxOf_mem hx) h1
    obtain ⟨lo, hi', v, e1, e2, e3, e4, e5⟩ := hall p.1 hx
    rw [dictGet_zip hol hx, hidx, h2] at e1
    rw [dictGet_zip hou hx, hidx, h3] at e2
    cases e1
    cases e2
    simp [e3, e4, e5]

/-- C05, error branch: an array whose last dimension is not the number of dimensions of the space is refused. -/
theorem inside_wrong_shape (s : Space) (rows : List (List Rat)) (row : List Rat) (hr : row ∈ rows)
    (hrow : row.length ≠ s.coords.nObs) (g : Bool) : s.inside (.mat rows) g = .error .shapeIncompatible := by
  unfold Space.inside
  have : rows.all (fun r => decide (r.length = s.coords.nObs)) = false := by
    rw [List.all_eq_false]; exact ⟨row, hr, by simpa using hrow⟩
  simp [sanitizeX, this]

/-- C05, other inputs: for a space of one dimension a number is one event and a one dimensional array a list of events; for more
dimensions both are refused. -/
theorem inside_flat_input (s : Space) (l : List Rat) (a : Rat) (g : Bool) :
    (s.coords.nObs = 1 → s.inside (.vec l) g = s.inside (.mat (l.map ([·]))) g ∧ s.inside (.scalar a) g = s.inside (.mat [[a]]) g) ∧
    (1 < s.coords.nObs → s.inside (.vec l) g = .error .valueError ∧ s.inside (.scalar a) g = .error .valueError) := by
  constructor
  · intro h
    unfold Space.inside
    rw [h]
    refine ⟨?_, rfl⟩
    simp [sanitizeX]
  · intro h
    unfold Space.inside
    simp [sanitizeX, h]

/-- C05: without limits nothing is selected or let through, also if the caller guarantees that the points are inside. -/
theorem filter_without_limits (s : Space) (h : ∃ l ∈ s.limValues, l = .unset ∨ l = .off) (rows : List (List Rat)) (g : Bool) :
    (∃ e, s.filter rows g = .error e) ∧ (∃ e, s.inside (.mat rows) g = .error e) ∧ ∃ e, s.rectLimits = .error e := by
  obtain ⟨l, hl, hlim⟩ := h
  have hr : s.hasRectLimits = false := by
    unfold Space.hasRectLimits
    rw [Bool.and_eq_false_iff]
    left
    rw [List.all_eq_false]
    refine ⟨l, hl, ?_⟩
    rcases hlim with rfl | rfl <;> simp [Lim.hasRect]
  have hins : ∀ rows', ∃ e, l.inside rows' = .error e := by
    intro rows'
    rcases hlim with rfl | rfl <;> exact ⟨_, rfl⟩
  have mapM_err : ∀ {α β : Type} (f : α → Except Err β) (m : List α) (a : α), a ∈ m → (∃ e, f a = .error e) → ∃ e, m.mapM f = .error e := by
    intro α β f m a ha hf
    cases hm : m.mapM f with
    | error e => exact ⟨e, rfl⟩
    | ok r =>
      exfalso
      obtain ⟨e, he⟩ := hf
      clear hr hins
      induction m generalizing r with
      | nil => cases ha
      | cons b m ih =>
        rw [List.mapM_cons] at hm
        cases hb : f b with
        | error e' => rw [hb] at hm; cases hm
        | ok c =>
          rw [hb] at hm
          cases hmm : m.mapM f with
          | error e' => rw [hmm] at hm; cases hm
          | ok r' =>
            rcases List.mem_cons.1 ha with rfl | ha
            · rw [he] at hb; cases hb
            · exact ih ha r' hmm
  have hraw : ∃ e, s.insideRaw rows = .error e := by
    unfold Space.insideRaw
    unfold Space.limValues at hl
    split
    · rename_i o ho
      rw [ho] at hl
      obtain ⟨p, hp, rfl⟩ := List.mem_map.1 hl
      obtain ⟨e, he⟩ := mapM_err (fun p : String × Lim => do
        let sub ← s.coords.reorderX rows none none (some [p.1]) none
        p.2.inside sub) (s.obsLim.getD []) p hp (by
          cases hx : s.coords.reorderX rows none none (some [p.1]) none with
          | error e => exact ⟨e, rfl⟩
          | ok sub => exact hins sub)
      exact ⟨e, by rw [he]; rfl⟩
    · rename_i ho
      rw [ho] at hl
      obtain ⟨p, hp, rfl⟩ := List.mem_map.1 hl
      obtain ⟨e, he⟩ := mapM_err (fun p : Int × Lim => do
        let sub ← s.coords.reorderX rows none none none (some [p.1])
        p.2.inside sub) (s.axLim.getD []) p hp (by
          cases hx : s.coords.reorderX rows none none none (some [p.1]) with
          | error e => exact ⟨e, rfl⟩
          | ok sub => exact hins sub)
      exact ⟨e, by rw [he]; rfl⟩
  have hinside : ∃ e, s.inside (.mat rows) g = .error e := by
    unfold Space.inside
    cases hx : sanitizeX s.coords.nObs (.mat rows) with
    | error e => exact ⟨e, rfl⟩
    | ok r =>
      obtain ⟨e, he⟩ := hraw
      have hrr : r = rows := by
        simp only [sanitizeX] at hx
        split at hx
        · cases hx; rfl
        · cases hx
      subst hrr
      simp only [except_bind_ok, hr, Bool.false_and, Bool.false_eq_true, if_false]
      rw [he]
      exact ⟨e, rfl⟩
  refine ⟨?_, hinside, ?_⟩
  · obtain ⟨e, he⟩ := hinside
    unfold Space.filter
    simp only [hr, Bool.false_and, Bool.false_eq_true, if_false]
    rw [he]
    exact ⟨e, rfl⟩
  · unfold Space.rectLimits
    rw [hr]
    cases s.hasLimits
    · exact ⟨_, rfl⟩
    · exact ⟨_, rfl⟩

/-- Such spaces: no limits given, or `limits=False`. -/
example : ∃ s t : Space, Space.make (some ["x", "y"]) none .none = .ok s ∧ Space.make (some ["x"]) none .false = .ok t ∧
    (∃ l ∈ s.limValues, l = .unset ∨ l = .off) ∧ ∃ l ∈ t.limValues, l = .unset ∨ l = .off := by
  refine ⟨_, _, rfl, rfl, ?_⟩
  decide +kernel

/-- Non-vacuity: both sides of a boundary, in two dimensions and after reordering. -/
example :
    (Space.make (some ["x", "y"]) none (.rect [0, 10] [1, 11]) >>= fun s =>
      s.withObs (some ["y", "x"]) false false >>= fun s' =>
        s'.inside (.mat [[10, 0], [11, 1], [0, 10], [21 / 2, 1001 / 1000]]) false) =
    .ok (.perEvent [true, true, false, false]) := by decide +kernel

/-- C05 is violated by `guarantee_limits=True`: the documented result is one boolean per event, the returned mask has
one boolean per event and dimension. -/
theorem inside_guarantee_shape_violated :
    ∃ s : Space, Space.make (some ["x", "y"]) none (.rect [0, 10] [1, 11]) = .ok s ∧
      s.inside (.mat [[0, 10], [1, 11], [1, 10]]) false = .ok (.perEvent [true, true, true]) ∧
      s.inside (.mat [[0, 10], [1, 11], [1, 10]]) true =
        .ok (.full [[true, true], [true, true], [true, true]]) := by
  refine ⟨_, rfl, ?_⟩
  decide +kernel

end Zfit.Sp
