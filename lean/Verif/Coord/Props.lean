import Verif.Coord.Lemmas

/-!
# Properties C01 - C04 for `Coordinates` (see /verif/properties.jsonl)

Vocabulary of the statements: `dictGet (labels.zip row) o` is the entry of `row` in the column labelled `o`.
-/

namespace Zfit.Coord

open Zfit

/-! ## C01: reordering never re-pairs observables and axes -/

/-- C01.  Start from any successfully constructed object with observables and axes.  After any successful chain of
`with_obs` / `with_axes` requests, the object still has both, of equal length, and every (observable, axis) pair
it holds is a pair of the original object. -/
theorem reorder_chain_keeps_pairs (o : List String) (a : List Int) (c c' : Coords) (reqs : List Req)
    (hc : Coords.make (some o) (some a) = .ok c) (h : c.applyAll reqs = .ok c') :
    ∃ o' a', c'.obs = some o' ∧ c'.axes = some a' ∧ o'.length = a'.length ∧
      ∀ p ∈ o'.zip a', p ∈ o.zip a := by
  obtain ⟨hl, rfl⟩ := make_some_some hc
  clear hc
  induction reqs generalizing o a with
  | nil =>
    simp only [Coords.applyAll, Except.ok.injEq] at h
    subst h
    exact ⟨o, a, rfl, rfl, hl, fun p hp => hp⟩
  | cons r rs ih =>
    simp only [Coords.applyAll, bind_eq_ok] at h
    obtain ⟨c1, h1, h2⟩ := h
    obtain ⟨o1, a1, rfl, hl1, hsub⟩ := apply_pairs h1
    obtain ⟨o', a', e1, e2, hl', hsub'⟩ := ih o1 a1 hl1 h2
    exact ⟨o', a', e1, e2, hl', fun p hp => hsub _ (hsub' _ hp)⟩

/-- C01.  The order after a chain is the order asked for last: the observables of the last `with_obs` request, without
those the object did not have at that point. -/
theorem last_obs_request_decides_order (c c' : Coords) (reqs : List Req) (l : List String) (sup sub : Bool)
    (o : List String) (a : List Int) (hc : Coords.make (some o) (some a) = .ok c)
    (h : c.applyAll (reqs ++ [.obs l sup sub]) = .ok c') :
    ∃ cBefore oBefore, c.applyAll reqs = .ok cBefore ∧ cBefore.obs = some oBefore ∧
      c'.obs = some (l.filter (· ∈ oBefore)) := by
  rw [applyAll_append, bind_eq_ok] at h
  obtain ⟨d, hd, h⟩ := h
  obtain ⟨o', a', ho, ha, -, -⟩ := reorder_chain_keeps_pairs o a c d reqs hc hd
  refine ⟨d, o', hd, ho, ?_⟩
  obtain ⟨dobs, daxes⟩ := d
  simp only at ho ha
  subst ho ha
  simp only [Coords.applyAll, bind_eq_ok, Coords.apply] at h
  obtain ⟨c1, h1, h2⟩ := h
  obtain ⟨a'', -, rfl, -, -⟩ := withObs_ok h1
  cases h2
  rfl

/-- C01, the same for axes. -/
theorem last_axes_request_decides_order (c c' : Coords) (reqs : List Req) (l : List Int) (sup sub : Bool)
    (o : List String) (a : List Int) (hc : Coords.make (some o) (some a) = .ok c)
    (h : c.applyAll (reqs ++ [.axes l sup sub]) = .ok c') :
    ∃ cBefore aBefore, c.applyAll reqs = .ok cBefore ∧ cBefore.axes = some aBefore ∧
      c'.axes = some (l.filter (· ∈ aBefore)) := by
  rw [applyAll_append, bind_eq_ok] at h
  obtain ⟨d, hd, h⟩ := h
  obtain ⟨o', a', ho, ha, -, -⟩ := reorder_chain_keeps_pairs o a c d reqs hc hd
  refine ⟨d, a', hd, ha, ?_⟩
  obtain ⟨dobs, daxes⟩ := d
  simp only at ho ha
  subst ho ha
  simp only [Coords.applyAll, bind_eq_ok, Coords.apply] at h
  obtain ⟨c1, h1, h2⟩ := h
  obtain ⟨a'', -, rfl, -, -⟩ := withAxes_ok h1
  cases h2
  rfl

/-- A request that forbids dropping anything (`allow_subset=False`). -/
def Req.keepsAll : Req → Bool
  | .obs _ _ sub => !sub
  | .axes _ _ sub => !sub

/-- C01.  If no request is allowed to drop coordinates, no pair is lost either. -/
theorem reorder_chain_loses_nothing (o : List String) (a : List Int) (c c' : Coords) (reqs : List Req)
    (hc : Coords.make (some o) (some a) = .ok c) (ho : o.Nodup) (ha : a.Nodup)
    (hk : ∀ r ∈ reqs, r.keepsAll = true) (h : c.applyAll reqs = .ok c') :
    ∃ o' a', c'.obs = some o' ∧ c'.axes = some a' ∧ ∀ p ∈ o.zip a, p ∈ o'.zip a' := by
  obtain ⟨hl, rfl⟩ := make_some_some hc
  have hf := functional_of_nodup ho ha
  clear hc ho ha
  -- later objects may repeat coordinates; what persists is that the pairing is one to one
  induction reqs generalizing o a with
  | nil =>
    simp only [Coords.applyAll, Except.ok.injEq] at h
    subst h
    exact ⟨o, a, rfl, rfl, fun p hp => hp⟩
  | cons r rs ih =>
    simp only [Coords.applyAll, bind_eq_ok] at h
    obtain ⟨c1, h1, h2⟩ := h
    obtain ⟨o1, a1, rfl, hl1, hsub⟩ := apply_pairs h1
    obtain ⟨o', a', e1, e2, hkeep⟩ := ih o1 a1 (fun r hr => hk r (List.mem_cons_of_mem _ hr)) hl1 h2
      (hf.mono hsub)
    refine ⟨o', a', e1, e2, fun p hp => hkeep p ?_⟩
    have hkr := hk r List.mem_cons_self
    have hpm := List.of_mem_zip (a := p.1) (b := p.2) hp
    cases r with
    | obs l sup sub =>
      obtain ⟨a'', ha'', hc1, hlen, hs⟩ := withObs_ok h1
      simp only [Coords.mk.injEq, Option.some.injEq] at hc1
      obtain ⟨rfl, rfl⟩ := hc1
      have hmem : ∀ x ∈ l.filter (· ∈ o), x ∈ o := by
        intro x hx; simpa using (List.mem_filter.1 hx).2
      refine gather_complete (zip_gather (mapM_pyGet_ok.1 (gather_idxOf hmem)) ha'')
        (List.mem_map.2 ⟨p.1, ?_, rfl⟩) (idxOf_zip_obs hf hp hl)
      have : p.1 ∈ l := hs (by simpa [Req.keepsAll] using hkr) _ hpm.1
      simp [this, hpm.1]
    | axes l sup sub =>
      obtain ⟨o'', ho'', hc1, hlen, hs⟩ := withAxes_ok h1
      simp only [Coords.mk.injEq, Option.some.injEq] at hc1
      obtain ⟨rfl, rfl⟩ := hc1
      have hmem : ∀ x ∈ l.filter (· ∈ a), x ∈ a := by
        intro x hx; simpa using (List.mem_filter.1 hx).2
      refine gather_complete (zip_gather ho'' (mapM_pyGet_ok.1 (gather_idxOf hmem)))
        (List.mem_map.2 ⟨p.2, ?_, rfl⟩) (idxOf_zip_axes hf hp hl)
      have : p.2 ∈ l := hs (by simpa [Req.keepsAll] using hkr) _ hpm.2
      simp [this, hpm.2]

/-- Non-vacuity: a three dimensional object, reordered by a cyclic permutation of the observables and then by axes. -/
example :
    (Coords.make (some ["x", "y", "z"]) (some [0, 1, 2]) >>= fun c =>
      c.applyAll [.obs ["y", "z", "x"] true false, .axes [0, 2, 1] true false]) =
    .ok ⟨some ["x", "z", "y"], some [0, 2, 1]⟩ := by decide

/-! ## C02: `reorder_x` -/

/-- C02.  With `x_obs`, every event of the result holds, for each observable of the object, the entry the input had in
the column labelled by this observable. -/
theorem reorderX_by_obs {β : Type} (c : Coords) (own xo : List String) (x : List (List β))
    (hown : c.obs = some own) (hne : own ≠ []) (hsub : ∀ o ∈ own, o ∈ xo)
    (hrow : ∀ row ∈ x, row.length = xo.length) :
    ∃ y : List (List β), c.reorderX x (some xo) none none none = .ok y ∧ y.length = x.length ∧
      ∀ (r : Nat) (row row' : List β), x[r]? = some row → y[r]? = some row' →
        row'.length = own.length ∧ ∀ o ∈ own, dictGet (own.zip row') o = dictGet (xo.zip row) o := by
  have hcall : c.reorderX x (some xo) none none none = gather x (own.map xo.idxOf) := by
    cases own with
    | nil => exact absurd rfl hne
    | cons o os => simp [Coords.reorderX, hown, falsy, reorderIndices_ok_of_subset hsub]
  rw [hcall]
  obtain ⟨y, hy⟩ := mapM_ok_of_forall_exists (f := fun row => gatherRow row (own.map xo.idxOf)) (l := x)
    (fun row hr => (gatherRow_by_label hsub (hrow row hr)).imp fun _ h => h.1)
  refine ⟨y, hy, mapM_ok_length hy, fun r row row' hr hr' => ?_⟩
  obtain ⟨z, hz, hzr⟩ := mapM_ok_getElem? hy hr
  rw [hr'] at hz
  cases hz
  obtain ⟨w, hw, h1, h2⟩ := gatherRow_by_label hsub (hrow row (List.mem_of_getElem? hr))
  rw [hzr] at hw
  cases hw
  exact ⟨h1, h2⟩

/-- C02, `func_obs`: the array is assumed to be in the order of the object and comes out in the order `fo`. -/
theorem reorderX_for_func {β : Type} (c : Coords) (own fo : List String) (x : List (List β))
    (hown : c.obs = some own) (hne : own ≠ []) (hsub : ∀ o ∈ fo, o ∈ own)
    (hrow : ∀ row ∈ x, row.length = own.length) :
    ∃ y : List (List β), c.reorderX x none none (some fo) none = .ok y ∧ y.length = x.length ∧
      ∀ (r : Nat) (row row' : List β), x[r]? = some row → y[r]? = some row' →
        row'.length = fo.length ∧ ∀ o ∈ fo, dictGet (fo.zip row') o = dictGet (own.zip row) o := by
  have hcall : c.reorderX x none none (some fo) none = gather x (fo.map own.idxOf) := by
    cases own with
    | nil => exact absurd rfl hne
    | cons o os => simp [Coords.reorderX, hown, falsy, reorderIndices_ok_of_subset hsub]
  rw [hcall]
  obtain ⟨y, hy⟩ := mapM_ok_of_forall_exists (f := fun row => gatherRow row (fo.map own.idxOf)) (l := x)
    (fun row hr => (gatherRow_by_label hsub (hrow row hr)).imp fun _ h => h.1)
  refine ⟨y, hy, mapM_ok_length hy, fun r row row' hr hr' => ?_⟩
  obtain ⟨z, hz, hzr⟩ := mapM_ok_getElem? hy hr
  rw [hr'] at hz
  cases hz
  obtain ⟨w, hw, h1, h2⟩ := gatherRow_by_label hsub (hrow row (List.mem_of_getElem? hr))
  rw [hzr] at hw
  cases hw
  exact ⟨h1, h2⟩

/-- C02.  Swapping `x_obs` for `func_obs` undoes the reordering, for every permutation of distinct observables. -/
theorem reorderX_inverse {β : Type} (c : Coords) (own xo : List String) (x y : List (List β))
    (hown : c.obs = some own) (hne : own ≠ []) (hn : xo.Nodup)
    (hsub : ∀ o ∈ own, o ∈ xo) (hsup : ∀ o ∈ xo, o ∈ own)
    (hrow : ∀ row ∈ x, row.length = xo.length)
    (h : c.reorderX x (some xo) none none none = .ok y) :
    c.reorderX y none none (some xo) none = .ok x := by
  have hcall : c.reorderX x (some xo) none none none = gather x (own.map xo.idxOf) := by
    cases own with
    | nil => exact absurd rfl hne
    | cons o os => simp [Coords.reorderX, hown, falsy, reorderIndices_ok_of_subset hsub]
  have hcall' : c.reorderX y none none (some xo) none = gather y (xo.map own.idxOf) := by
    cases own with
    | nil => exact absurd rfl hne
    | cons o os => simp [Coords.reorderX, hown, falsy, reorderIndices_ok_of_subset hsup]
  rw [hcall] at h
  rw [hcall']
  apply (mapM_ok_iff _ _ _).2
  apply List.ext_getElem?
  intro k
  simp only [List.getElem?_map]
  have hlen := mapM_ok_length h
  cases hx : x[k]? with
  | none =>
    have : x.length ≤ k := by simpa using hx
    rw [List.getElem?_eq_none (by omega)]
    rfl
  | some row =>
    obtain ⟨row', hr', hg⟩ := mapM_ok_getElem? h hx
    rw [hr']
    simp only [Option.map_some, Option.some.injEq]
    exact gatherRow_back hn hsup (hrow row (List.mem_of_getElem? hx)) hg

/-- C02, error branch: an observable of the object that is missing in `x_obs` is a `ValueError`. -/
theorem reorderX_missing_obs {β : Type} (c : Coords) (own xo : List String) (x : List (List β))
    (hown : c.obs = some own) (o : String) (ho : o ∈ own) (hmiss : o ∉ xo) :
    c.reorderX x (some xo) none none none = .error .valueError := by
  have hidx : reorderIndices xo own = .error .valueError := by
    clear hown
    unfold reorderIndices
    induction own with
    | nil => simp at ho
    | cons p own ih =>
      rw [List.mapM_cons]
      by_cases hp : p ∈ xo
      · have : o ∈ own := by
          rcases List.mem_cons.1 ho with h | h
          · subst h; exact absurd hp hmiss
          · exact h
        simp [pyIndex, hp, ih this]
      · simp [pyIndex, hp]
  cases own with
  | nil => simp at ho
  | cons p ps => simp [Coords.reorderX, hown, falsy, hidx]

/-- Non-vacuity of the C02 theorems: a cyclic permutation of three columns and its inverse. -/
example :
    (Coords.mk (some ["x", "y", "z"]) none).reorderX [[1, 2, 3], [4, 5, 6]] (some ["z", "x", "y"]) none none none
        = .ok [[2, 3, 1], [5, 6, 4]] ∧
    (Coords.mk (some ["x", "y", "z"]) none).reorderX [[2, 3, 1], [5, 6, 4]] none none (some ["z", "x", "y"]) none
        = .ok [[1, 2, 3], [4, 5, 6]] := by decide

/-! ## C03: when `with_obs` accepts -/

/-- The documented reasons for refusing a reorder request. -/
def Refused {α : Type} (own req : List α) (allowSuperset allowSubset : Bool) : Prop :=
  (∀ o ∈ req, o ∉ own) ∨ (allowSuperset = false ∧ ∃ o ∈ req, o ∉ own) ∨
    (allowSubset = false ∧ ∃ o ∈ own, o ∉ req)

/-- C03.  For an object with observables `own`, `with_obs(l)` raises `ObsIncompatibleError` exactly if nothing is in
common, or something is added against `allow_superset=False`, or something is dropped against
`allow_subset=False`; otherwise it returns the common observables in the requested order. -/
theorem withObs_decision (own : List String) (axes : Option (List Int)) (c : Coords)
    (hc : Coords.make (some own) axes = .ok c) (l : List String) (sup sub : Bool) :
    (Refused own l sup sub → c.withObs (some l) sup sub = .error .obsIncompatible) ∧
    (¬ Refused own l sup sub → ∃ c', c.withObs (some l) sup sub = .ok c' ∧
      c'.obs = some (l.filter (· ∈ own)) ∧ c'.axes.isSome = axes.isSome) := by
  have hcobs : c.obs = some own ∧ c.axes = axes ∧ (∀ a, axes = some a → own.length = a.length) := by
    cases axes with
    | none =>
      unfold Coords.make at hc
      simp only at hc
      split at hc
      · simp at hc
      · cases hc; simp
    | some a => obtain ⟨hl, rfl⟩ := make_some_some hc; simp [hl]
  obtain ⟨h1, h2, h3⟩ := hcobs
  have hmem : ∀ x ∈ l.filter (· ∈ own), x ∈ own := by
    intro x hx
    simpa using (List.mem_filter.1 hx).2
  unfold Coords.withObs
  simp only [h1]
  constructor
  · rintro (h | ⟨hs, o, ho, hno⟩ | ⟨hs, o, ho, hno⟩)
    · rw [if_pos]
      simpa using h
    · split
      · rfl
      · rw [if_pos]
        exact ⟨by simp [hs], List.any_eq_true.2 ⟨o, ho, by simpa using hno⟩⟩
    · split
      · rfl
      · split
        · rfl
        · rw [if_pos]
          exact ⟨by simp [hs], List.any_eq_true.2 ⟨o, ho, by simpa using hno⟩⟩
  · intro hnr
    simp only [Refused, not_or, not_and, not_exists] at hnr
    obtain ⟨n1, n2, n3⟩ := hnr
    have hex : ∃ o ∈ l, o ∈ own := Classical.byContradiction fun hcon =>
      n1 (fun o ho ho' => hcon ⟨o, ho, ho'⟩)
    rw [if_neg (by simpa using hex)]
    rw [if_neg (by
      simp only [Bool.not_eq_true, List.any_eq_true, decide_eq_true_eq, not_and, not_exists]
      intro hs o ho; exact n2 hs o ho)]
    rw [if_neg (by
      simp only [Bool.not_eq_true, List.any_eq_true, decide_eq_true_eq, not_and, not_exists]
      intro hs o ho; exact n3 hs o ho)]
    have hne : l.filter (· ∈ own) ≠ [] := by
      obtain ⟨o, ho, ho'⟩ := hex
      intro hcon
      have : o ∈ l.filter (· ∈ own) := List.mem_filter.2 ⟨ho, by simpa using ho'⟩
      rw [hcon] at this
      simp at this
    have hfal : falsy (some (l.filter (· ∈ own))) = false := by
      cases hf : l.filter (· ∈ own) with
      | nil => exact absurd hf hne
      | cons x xs => rfl
    simp only [Coords.getReorderIndices, h1, h2, reorderIndices_ok_of_subset hmem, except_bind_ok, reorderTuple,
      gather_idxOf hmem, except_pure]
    cases axes with
    | none => simp [Coords.make, hfal]
    | some a =>
      have hl := h3 a rfl
      obtain ⟨r, hr⟩ := mapM_pyGet_ok_of_lt (l := a) (idx := (l.filter (· ∈ own)).map own.idxOf) (by
        intro i hi
        obtain ⟨o, ho, rfl⟩ := List.mem_map.1 hi
        rw [← hl]
        exact List.idxOf_lt_length_iff.2 (hmem o ho))
      have hlen : r.length = (l.filter (· ∈ own)).length := by
        simpa using gather_length (mapM_pyGet_ok.1 hr)
      simp only [hr, except_bind_ok]
      refine ⟨⟨some (l.filter (· ∈ own)), some r⟩, ?_, rfl, rfl⟩
      simp [Coords.make, hlen, hfal]

/-- C03.  Dropping the observables (`with_obs(None)`) is refused exactly if there are no axes. -/
theorem withObs_none_decision (o : Option (List String)) (a : Option (List Int)) (c : Coords)
    (hc : Coords.make o a = .ok c) (sup sub : Bool) :
    (a = none → c.withObs none sup sub = .error .axesIncompatible) ∧
    (∀ l, a = some l → c.withObs none sup sub = .ok ⟨none, some l⟩) := by
  cases o <;> cases a <;> simp only [Coords.make] at hc
  · simp at hc
  · split at hc
    · simp at hc
    · rename_i h; cases hc; simp [Coords.withObs, Coords.make, h]
  · split at hc
    · simp at hc
    · rename_i h; cases hc; simp [Coords.withObs]
  · split at hc
    · simp at hc
    · split at hc
      · simp at hc
      · rename_i o l hlen h
        cases hc
        cases l with
        | nil =>
          have : o = [] := by simpa using hlen
          subst this
          simp [falsy] at h
        | cons x l => simp [Coords.withObs, Coords.make, falsy]

/-- C03, axes given to coordinates that have none: accepted exactly if there are as many as observables (whatever the flags), and
then they belong to the observables in the given order. -/
theorem withAxes_new_decision (obs : List String) (c : Coords) (hc : Coords.make (some obs) none = .ok c) (l : List Int)
    (sup sub : Bool) :
    (l.length = obs.length → c.withAxes (some l) sup sub = .ok ⟨some obs, some l⟩) ∧
    (l.length ≠ obs.length → c.withAxes (some l) sup sub = .error .axesIncompatible) := by
  unfold Coords.make at hc
  simp only at hc
  split at hc
  · simp at hc
  · rename_i hf
    cases hc
    refine ⟨fun h => ?_, fun h => by simp [Coords.withAxes, h]⟩
    have hne : obs ≠ [] := by
      rintro rfl
      simp [falsy] at hf
    cases l with
    | nil => exact absurd (List.length_eq_zero_iff.1 h.symm) hne
    | cons a l => simp_all [Coords.withAxes, Coords.make, falsy]

example : ∃ c, Coords.make (some ["x", "y"]) none = .ok c := ⟨_, rfl⟩

/-- C03, same decision for axes. -/
theorem withAxes_decision (own : List Int) (obs : Option (List String)) (c : Coords)
    (hc : Coords.make obs (some own) = .ok c) (l : List Int) (sup sub : Bool) :
    (Refused own l sup sub → c.withAxes (some l) sup sub = .error .axesIncompatible) ∧
    (¬ Refused own l sup sub → ∃ c', c.withAxes (some l) sup sub = .ok c' ∧
      c'.axes = some (l.filter (· ∈ own)) ∧ c'.obs.isSome = obs.isSome) := by
  have hcobs : c.axes = some own ∧ c.obs = obs ∧ (∀ a, obs = some a → own.length = a.length) := by
    cases obs with
    | none =>
      unfold Coords.make at hc
      simp only at hc
      split at hc
      · simp at hc
      · cases hc; simp
    | some a => obtain ⟨hl, rfl⟩ := make_some_some hc; simp [hl]
  obtain ⟨h1, h2, h3⟩ := hcobs
  have hmem : ∀ x ∈ l.filter (· ∈ own), x ∈ own := by
    intro x hx
    simpa using (List.mem_filter.1 hx).2
  unfold Coords.withAxes
  simp only [h1]
  constructor
  · rintro (h | ⟨hs, o, ho, hno⟩ | ⟨hs, o, ho, hno⟩)
    · rw [if_pos]
      simpa using h
    · split
      · rfl
      · rw [if_pos]
        exact ⟨by simp [hs], List.any_eq_true.2 ⟨o, ho, by simpa using hno⟩⟩
    · split
      · rfl
      · split
        · rfl
        · rw [if_pos]
          exact ⟨by simp [hs], List.any_eq_true.2 ⟨o, ho, by simpa using hno⟩⟩
  · intro hnr
    simp only [Refused, not_or, not_and, not_exists] at hnr
    obtain ⟨n1, n2, n3⟩ := hnr
    have hex : ∃ o ∈ l, o ∈ own := Classical.byContradiction fun hcon =>
      n1 (fun o ho ho' => hcon ⟨o, ho, ho'⟩)
    rw [if_neg (by simpa using hex)]
    rw [if_neg (by
      simp only [Bool.not_eq_true, List.any_eq_true, decide_eq_true_eq, not_and, not_exists]
      intro hs o ho; exact n2 hs o ho)]
    rw [if_neg (by
      simp only [Bool.not_eq_true, List.any_eq_true, decide_eq_true_eq, not_and, not_exists]
      intro hs o ho; exact n3 hs o ho)]
    have hne : l.filter (· ∈ own) ≠ [] := by
      obtain ⟨o, ho, ho'⟩ := hex
      intro hcon
      have : o ∈ l.filter (· ∈ own) := List.mem_filter.2 ⟨ho, by simpa using ho'⟩
      rw [hcon] at this
      simp at this
    have hfal : falsy (some (l.filter (· ∈ own))) = false := by
      cases hf : l.filter (· ∈ own) with
      | nil => exact absurd hf hne
      | cons x xs => rfl
    have hidx : c.getReorderIndices none (some l) = .ok ((l.filter (· ∈ own)).map own.idxOf) := by
      unfold Coords.getReorderIndices
      cases c.obs <;> simp [h1, reorderIndices_ok_of_subset hmem]
    simp only [hidx, h2, except_bind_ok, reorderTuple, gather_idxOf hmem, except_pure]
    cases obs with
    | none => simp [Coords.make, hfal]
    | some a =>
      have hl := h3 a rfl
      obtain ⟨r, hr⟩ := mapM_pyGet_ok_of_lt (l := a) (idx := (l.filter (· ∈ own)).map own.idxOf) (by
        intro i hi
        obtain ⟨o, ho, rfl⟩ := List.mem_map.1 hi
        rw [← hl]
        exact List.idxOf_lt_length_iff.2 (hmem o ho))
      have hlen : r.length = (l.filter (· ∈ own)).length := by
        simpa using gather_length (mapM_pyGet_ok.1 hr)
      simp only [hr, except_bind_ok]
      refine ⟨⟨some r, some (l.filter (· ∈ own))⟩, ?_, rfl, rfl⟩
      simp [Coords.make, hlen, hfal]

/-- Both cases of C03 occur: a strict superset is accepted or refused depending on the flag. -/
example :
    Refused ["x", "y"] ["y", "z"] false true ∧ ¬ Refused ["x", "y"] ["y", "z"] true true ∧
    (Coords.mk (some ["x", "y"]) none).withObs (some ["y", "z"]) true true = .ok ⟨some ["y"], none⟩ ∧
    (Coords.mk (some ["x", "y"]) none).withObs (some ["y", "z"]) false true = .error .obsIncompatible := by
  refine ⟨?_, ?_, by decide, by decide⟩ <;> simp [Refused]

/-! ## C04 for `Coordinates`: equality -/

/-- C04: every constructed object equals itself. -/
theorem eq_refl (o : Option (List String)) (a : Option (List Int)) (c : Coords)
    (hc : Coords.make o a = .ok c) : c.eq c = true := by
  have h : c.obs.isSome ∨ c.axes.isSome := by
    cases o <;> cases a <;> simp only [Coords.make] at hc <;> try split at hc
    all_goals try split at hc
    all_goals first | (cases hc; simp) | simp at hc
  obtain ⟨co, ca⟩ := c
  cases co <;> cases ca <;> simp_all [Coords.eq]

/-- C04: equality is symmetric. -/
theorem eq_symm (c d : Coords) : c.eq d = d.eq c := by
  obtain ⟨co, ca⟩ := c
  obtain ⟨dob, da⟩ := d
  unfold Coords.eq
  cases co <;> cases ca <;> cases dob <;> cases da <;> simp [Bool.and_comm]

/-- C04: equal coordinates hash alike. -/
theorem eq_hash (c d : Coords) (_ : c.eq d = true) : c.hash = d.hash := rfl

/-- C04 (partial: among objects that carry only observables; in general transitivity fails, see below). Missing from the full claim: the
cases of `eq_not_transitive_violated`, `space_eq_transitive_violated`, `space_hash_violated`, `space_eq_error_violated`. -/
theorem eq_trans_partial (a b d : List String) (h1 : Coords.eq ⟨some a, none⟩ ⟨some b, none⟩ = true)
    (h2 : Coords.eq ⟨some b, none⟩ ⟨some d, none⟩ = true) : Coords.eq ⟨some a, none⟩ ⟨some d, none⟩ = true := by
  simp only [Coords.eq, Bool.or_false, Bool.and_eq_true, List.all_eq_true, decide_eq_true_eq] at *
  exact ⟨fun x hx => h2.1 x (h1.1 x hx), fun x hx => h1.2 x (h2.2 x hx)⟩

/-- C04 is violated: `==` of coordinates is not transitive. -/
theorem eq_not_transitive_violated :
    ∃ c d e : Coords, (∃ o a, Coords.make o a = .ok c) ∧ (∃ o a, Coords.make o a = .ok d) ∧
      (∃ o a, Coords.make o a = .ok e) ∧ c.eq d = true ∧ d.eq e = true ∧ c.eq e = false :=
  ⟨⟨some ["x"], some [0]⟩, ⟨some ["x"], some [1]⟩, ⟨some ["y"], some [1]⟩,
    ⟨some ["x"], some [0], rfl⟩, ⟨some ["x"], some [1], rfl⟩, ⟨some ["y"], some [1], rfl⟩,
    by decide, by decide, by decide⟩

end Zfit.Coord
