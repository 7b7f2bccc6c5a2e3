import Verif.Space.NormModel
import Verif.Space.Lemmas

/-!
# Properties C284 and C285 (see /verif/properties.jsonl): the normalisation range of a PDF

`dictGet (o.zip l) x` is the entry of `l` at the position of the observable `x` in `o`.
-/

namespace Zfit.Sp

open Zfit Zfit.Coord

/-! ### Success of reordering to the same observables -/

theorem coords_withObs_same {own co : List String} {ax : Option (List Int)} {sup sub : Bool} (hne : co ≠ [])
    (h1 : ∀ x ∈ co, x ∈ own) (h2 : ∀ x ∈ own, x ∈ co) (hnd : co.Nodup) (hod : own.Nodup)
    (hl : ∀ a, ax = some a → a.length = own.length) :
    ∃ ax', Coords.withObs ⟨some own, ax⟩ (some co) sup sub = .ok ⟨some co, ax'⟩ ∧ (ax = none → ax' = none) ∧
      (∀ a, ax = some a → ∃ a', ax' = some a' ∧ a'.length = co.length ∧ (own = co → a' = a)) := by
  obtain ⟨x, co', rfl⟩ : ∃ x co', co = x :: co' := by
    cases co with
    | nil => exact absurd rfl hne
    | cons x co' => exact ⟨x, co', rfl⟩
  have hf : (x :: co').filter (· ∈ own) = x :: co' := by
    rw [List.filter_eq_self]
    intro y hy
    simpa using h1 y hy
  have e1 : ¬¬ (x :: co').any (· ∈ own) = true := by
    simp only [not_not]
    rw [List.any_eq_true]
    exact ⟨x, List.mem_cons_self, by simpa using h1 x List.mem_cons_self⟩
  have e2 : ¬ (¬ sup = true ∧ (x :: co').any (· ∉ own) = true) := by
    rintro ⟨-, h⟩
    rw [List.any_eq_true] at h
    obtain ⟨y, hy, h⟩ := h
    simp at h
    exact h (h1 y hy)
  have e3 : ¬ (¬ sub = true ∧ own.any (· ∉ x :: co') = true) := by
    rintro ⟨-, h⟩
    rw [List.any_eq_true] at h
    obtain ⟨y, hy, h⟩ := h
    rw [decide_eq_true_eq] at h
    exact h (h2 y hy)
  have hidx : reorderIndices own ((x :: co').filter (· ∈ own)) = .ok ((x :: co').map own.idxOf) := by
    rw [hf]; exact reorderIndices_ok_of_subset h1
  have hg := gather_idxOf h1
  cases ax with
  | none =>
    refine ⟨none, ?_, fun _ => rfl, fun a h => by cases h⟩
    unfold Coords.withObs
    simp only
    rw [if_neg e1, if_neg e2, if_neg e3]
    simp only [Coords.getReorderIndices]
    rw [hidx]
    simp only [except_bind_ok, reorderTuple, hg, except_pure]
    simp [Coords.make, falsy]
  | some a =>
    have hla := hl a rfl
    obtain ⟨a', ha'⟩ := mapM_pyGet_ok_of_lt (l := a) (idx := (x :: co').map own.idxOf) (by
      intro i hi
      obtain ⟨y, hy, rfl⟩ := List.mem_map.1 hi
      rw [hla]
      exact List.idxOf_lt_length_iff.2 (h1 y hy))
    have hlen : a'.length = (x :: co').length := by
      have := mapM_ok_length ha'
      simpa using this
    refine ⟨some a', ?_, (fun h => by cases h), ?_⟩
    · unfold Coords.withObs
      simp only
      rw [if_neg e1, if_neg e2, if_neg e3]
      simp only [Coords.getReorderIndices]
      rw [hidx]
      simp only [except_bind_ok, reorderTuple, hg, ha', except_pure]
      simp [Coords.make, falsy, hlen]
    · rintro _ ⟨⟩
      refine ⟨a', rfl, hlen, fun e => ?_⟩
      have hm := mapM_pyGet_ok.1 ha'
      rw [← e] at hm
      have hr : own.map own.idxOf = List.range own.length := by
        apply List.ext_getElem
        · simp
        · intro i h3 h4
          simp only [List.getElem_map, List.getElem_range]
          exact hod.idxOf_getElem i _
      rw [hr] at hm
      have := picks_range a
      unfold Picks at this
      rw [hla, hm] at this
      exact List.map_injective_iff.2 (Option.some_injective _) this


/-- Copying a space with dictionaries for all its coordinates always succeeds. -/
theorem copyWith_dicts {s : Space} {o : List String} {a : Option (List Int)} {d : List (String × Lim)} (hd : s.obsLim = some d)
    (ha : ∀ l, a = some l → (∃ d', s.axLim = some d') ∧ l.length = o.length) (hne : o ≠ []) :
    ∃ s', s.copyWith (some o) a = .ok s' ∧ s'.coords = ⟨some o, a⟩ := by
  unfold Space.copyWith Space.make
  cases a with
  | none =>
    have hc : Coords.make (some o) none = .ok ⟨some o, none⟩ := by
      cases o with
      | nil => exact absurd rfl hne
      | cons x o => rfl
    rw [hc]
    simp [normaliseDict, pickOrDerive, hd]
  | some l =>
    obtain ⟨⟨d', hd'⟩, hl⟩ := ha l rfl
    have hc : Coords.make (some o) (some l) = .ok ⟨some o, some l⟩ := by
      cases o with
      | nil => exact absurd rfl hne
      | cons x o => simp [Coords.make, falsy, hl]
    rw [hc]
    simp [normaliseDict, pickOrDerive, hd, hd']

/-- Reordering a space with limits to coordinates with the same observables succeeds and gives these coordinates. -/
theorem withCoords_same {s : Space} {lims : List (Rat × Rat)} {so co : List String} {ca : List Int} {sup sub : Bool} (h : Inv s lims)
    (hso : s.coords.obs = some so) (h1 : ∀ x ∈ co, x ∈ so) (h2 : ∀ x ∈ so, x ∈ co) (hco : co.Nodup) (hlen : ca.length = co.length) :
    ∃ s', s.withCoords ⟨some co, some ca⟩ sup sub = .ok s' ∧ s'.coords = ⟨some co, some ca⟩ := by
  obtain ⟨hsl, hsn, d, hd, hal⟩ := h.obs so hso
  have hsne : so ≠ [] := by
    rintro rfl
    exact h.ne (List.length_eq_zero_iff.1 hsl.symm)
  have hne : co ≠ [] := by
    rintro rfl
    cases so with
    | nil => exact hsne rfl
    | cons x so => exact absurd (h2 x List.mem_cons_self) (by simp)
  have hax : ∀ a, s.coords.axes = some a → a.length = so.length := fun a ha => by rw [(h.ax a ha).1, hsl]
  have hcoords : s.coords = ⟨some so, s.coords.axes⟩ := by rw [← hso]
  -- reordering the observables
  obtain ⟨ax', hw, hn, hs⟩ := coords_withObs_same (sup := sup) (sub := sub) hne h1 h2 hco hsn hax
  rw [← hcoords] at hw
  obtain ⟨s1, hs1, hc1⟩ := copyWith_dicts (s := s) (o := co) (a := ax') hd (by
    intro l hl
    cases hsa : s.coords.axes with
    | none => rw [hn hsa] at hl; cases hl
    | some a =>
      obtain ⟨a', ha', hla, -⟩ := hs a hsa
      rw [ha'] at hl
      cases hl
      obtain ⟨-, -, d', hd', -⟩ := h.ax a hsa
      exact ⟨⟨d', hd'⟩, hla⟩) hne
  have hs1' : s.withObs (some co) sup sub = .ok s1 := by
    simp only [Space.withObs]
    rw [hw]
    simpa using hs1
  obtain ⟨_, lims1, _, hi1, -, -⟩ := withObs_some_step h hco hs1'
  -- dropping the axes
  obtain ⟨s2, hs2, hc2, lims2, hi2⟩ : ∃ s2, s1.dropAxes = .ok s2 ∧ s2.coords = ⟨some co, none⟩ ∧ ∃ lims2, Inv s2 lims2 := by
    unfold Space.dropAxes
    cases hax1 : s1.coords.axes with
    | none =>
      refine ⟨s1, by simp, ?_, lims1, hi1⟩
      rw [hc1] at hax1 ⊢
      simp only at hax1
      rw [hax1]
    | some a1 =>
      simp only [Option.isSome_some, if_true]
      obtain ⟨-, -, d1, hd1, -⟩ := hi1.obs co (by rw [hc1])
      obtain ⟨s2, hs2, hc2⟩ := copyWith_dicts (s := s1) (o := co) (a := none) hd1 (fun l hl => by cases hl) hne
      have hs2' : s1.withAxes none true true = .ok s2 := by
        simp only [Space.withAxes]
        rw [hax1]
        simp only [hc1]
        exact hs2
      obtain ⟨_, lims2, _, hi2, -, -⟩ := withAxes_none_step hi1 hs2'
      exact ⟨s2, hs2', hc2, lims2, hi2⟩
  -- the axes asked for
  obtain ⟨axc, hwc, -, hsc⟩ := coords_withObs_same (own := co) (co := co) (ax := some ca) (sup := sup) (sub := sub) hne (fun _ => id) (fun _ => id)
    hco hco (fun a ha => by cases ha; exact hlen)
  obtain ⟨a', rfl, -, haa⟩ := hsc ca rfl
  rw [haa rfl] at hwc
  -- putting them on
  obtain ⟨hl2, hn2, d2, hd2, hal2⟩ := hi2.obs co (by rw [hc2])
  obtain ⟨d3, hd3, -⟩ := deriveDict_ok (own := ca) hal2 hn2 hlen
  have hcm : Coords.make (some co) (some ca) = .ok ⟨some co, some ca⟩ := by
    cases co with
    | nil => exact absurd rfl hne
    | cons x o => simp [Coords.make, falsy, hlen]
  have hax2 : s2.axLim = none := hi2.ax_none (by rw [hc2])
  have hfin : ∃ s', s2.withAxes (some ca) true true = .ok s' ∧ s'.coords = ⟨some co, some ca⟩ := by
    simp only [Space.withAxes, hc2]
    rw [if_neg (by simpa using hlen)]
    unfold Space.copyWith Space.make
    rw [hcm, hd2, hax2]
    simp only [except_bind_ok, normaliseDict, pickOrDerive, except_pure, Option.isNone_some, Bool.false_and]
    simp [hd3]
  obtain ⟨s', hs', hc'⟩ := hfin
  refine ⟨s', ?_, hc'⟩
  unfold Space.withCoords
  rw [hso]
  simp only
  rw [hs1']
  simp only [except_bind_ok]
  rw [hs2]
  simp only [except_bind_ok, hc2]
  rw [hwc]
  exact hs'

/-! ### Limits as numbers -/

theorem dictSet_fresh {κ : Type} [DecidableEq κ] {a : List (κ × Lim)} {k : κ} {v : Lim} (h : k ∉ a.map (·.1)) :
    dictSet a k v = a ++ [(k, v)] := by
  induction a with
  | nil => rfl
  | cons q a iha =>
    simp only [List.map_cons, List.mem_cons, not_or] at h
    unfold dictSet
    rw [if_neg (fun h' => h.1 h'.symm), iha h.2]
    rfl

theorem fresh_append {κ : Type} {acc : List (κ × Lim)} {k : κ} {v : Lim} {keys : List κ} (hk : ∀ x ∈ k :: keys, x ∉ acc.map (·.1))
    (hn : (k :: keys).Nodup) : ∀ x ∈ keys, x ∉ (acc ++ [(k, v)]).map (·.1) := by
  intro x hx
  simp only [List.map_append, List.map_cons, List.map_nil, List.mem_append, List.mem_singleton, not_or]
  refine ⟨hk x (List.mem_cons_of_mem _ hx), ?_⟩
  rintro rfl
  exact (List.nodup_cons.1 hn).1 hx

theorem buildDict_zip {κ : Type} [DecidableEq κ] {keys : List κ} (hn : keys.Nodup) (vals : List Lim) :
    buildDict keys vals = keys.zip vals := by
  have key : ∀ (keys : List κ) (vals : List Lim) (acc : List (κ × Lim)), (∀ k ∈ keys, k ∉ acc.map (·.1)) → keys.Nodup →
      (keys.zip vals).foldl (fun d p => dictSet d p.1 p.2) acc = acc ++ keys.zip vals := by
    intro keys
    induction keys with
    | nil => simp
    | cons k keys ih =>
      intro vals acc hk hn
      cases vals with
      | nil => simp
      | cons v vals =>
        rw [List.zip_cons_cons, List.foldl_cons, dictSet_fresh (hk k List.mem_cons_self),
          ih vals _ (fresh_append hk hn) (List.nodup_cons.1 hn).2]
        simp
  unfold buildDict
  rw [key keys vals [] (by simp) hn]
  rfl

theorem deriveDict_zip {κ ι : Type} [DecidableEq κ] [DecidableEq ι] {own : List κ} {other : List ι} (hlen : own.length = other.length)
    (ho : own.Nodup) (hn : other.Nodup) (vals : List Lim) :
    deriveDict own (some other) (other.zip vals) = .ok (own.zip vals) := by
  have key : ∀ (q1 p1 : List ι) (p2 q2 : List κ) (vals : List Lim) (acc : List (κ × Lim)), other = p1 ++ q1 → own = p2 ++ q2 →
      p1.length = p2.length → (∀ k ∈ q2, k ∉ acc.map (·.1)) →
      (q1.zip vals).foldlM (fun acc p => do
          let i ← pyIndex other p.1
          let k ← pyGet own i
          return dictSet acc k p.2) acc = (Except.ok (acc ++ q2.zip vals) : Except Err _) := by
    intro q1
    induction q1 with
    | nil =>
      intro p1 p2 q2 vals acc h1 h2 h3 _
      have : q2 = [] := by
        have := congrArg List.length h1
        have := congrArg List.length h2
        simp at *
        apply List.length_eq_zero_iff.1
        omega
      subst this
      simp
    | cons x q1 ih =>
      intro p1 p2 q2 vals acc h1 h2 h3 hk
      cases vals with
      | nil => simp
      | cons v vals =>
        obtain ⟨y, q2, rfl⟩ : ∃ y q2', q2 = y :: q2' := by
          cases q2 with
          | nil =>
            have := congrArg List.length h1
            have := congrArg List.length h2
            simp at *
            omega
          | cons y q2 => exact ⟨y, q2, rfl⟩
        have hx : other[p1.length]? = some x := by rw [h1]; simp
        have hy : own[p1.length]? = some y := by rw [h2, h3]; simp
        have him : x ∈ other := List.mem_of_getElem? hx
        have hidx : other.idxOf x = p1.length := nodup_getElem?_inj hn (getElem?_idxOf_mem him) hx
        have e1 : pyIndex other x = .ok p1.length := by simp [pyIndex, him, hidx]
        have e2 : pyGet own p1.length = .ok y := pyGet_ok.2 hy
        rw [List.zip_cons_cons, List.foldlM_cons]
        simp only [e1, except_bind_ok, e2, except_pure]
        have hq : (y :: q2).Nodup := by
          rw [h2] at ho
          exact (List.nodup_append.1 ho).2.1
        rw [dictSet_fresh (hk y List.mem_cons_self)]
        have := ih (p1 ++ [x]) (p2 ++ [y]) q2 vals (acc ++ [(y, v)]) (by simp [h1]) (by simp [h2]) (by simp [h3]) (fresh_append hk hq)
        simp only [except_pure] at this
        rw [this]
        simp
  have := key other [] [] own vals [] rfl rfl rfl (by simp)
  simpa [deriveDict] using this

theorem coords_make_some {o : List String} {ax : Option (List Int)} (hne : o ≠ []) (hlen : ∀ a, ax = some a → a.length = o.length) :
    Coords.make (some o) ax = .ok ⟨some o, ax⟩ := by
  obtain ⟨x, o, rfl⟩ : ∃ x o', o = x :: o' := by
    cases o with
    | nil => exact absurd rfl hne
    | cons x o => exact ⟨x, o, rfl⟩
  cases ax with
  | none => rfl
  | some a =>
    have := hlen a rfl
    unfold Coords.make
    simp only [falsy, Bool.false_and]
    rw [if_neg (by simpa using this.symm)]
    rfl

/-- Limits that are not the dictionary of another space. -/
def LimIn.Plain : LimIn → Prop
  | .dict _ _ => False
  | _ => True

theorem filter_zip_self {κ : Type} [DecidableEq κ] (l : List κ) (pieces : List Lim) :
    (l.zip pieces).filter (fun p => decide (p.1 ∈ l)) = l.zip pieces := by
  rw [List.filter_eq_self]
  rintro ⟨x, v⟩ hx
  simpa using (List.of_mem_zip hx).1

/-- A space made of observables, axes and limits. -/
theorem make_form {o : List String} {ax : Option (List Int)} (ho : o.Nodup) (ha : ∀ a, ax = some a → a.Nodup)
    (hlen : ∀ a, ax = some a → a.length = o.length) (hne : o ≠ []) {lim : LimIn} (hl : lim.Plain) :
    Space.make (some o) ax lim =
      (limitPieces o.length lim).map fun pieces => ⟨⟨some o, ax⟩, some (o.zip pieces), ax.map (·.zip pieces)⟩ := by
  have hmake : Space.make (some o) ax lim = (do
      let c ← Coords.make (some o) ax
      let pieces ← limitPieces c.nObs lim
      let (o, a) ← normaliseDict c.obs c.axes (c.obs.map (buildDict · pieces)) (c.axes.map (buildDict · pieces))
      return ⟨c, o, a⟩) := by
    unfold Space.make
    cases lim with
    | dict d d' => exact hl.elim
    | none => rfl
    | false => rfl
    | rect l u => rfl
  rw [hmake, coords_make_some hne hlen]
  simp only [except_bind_ok, Coords.nObs]
  cases hp : limitPieces o.length lim with
  | error e => rfl
  | ok pieces =>
    cases ax with
    | none => simp [buildDict_zip ho, normaliseDict, pickOrDerive, filter_zip_self, Except.map]
    | some a => simp [buildDict_zip ho, buildDict_zip (ha a rfl), normaliseDict, pickOrDerive, filter_zip_self, Except.map]

theorem copyWith_zip {o : List String} {ax ax' : Option (List Int)} {pieces : List Lim} (ho : o.Nodup) (ha : ∀ a, ax' = some a → a.Nodup)
    (hlen : ∀ a, ax' = some a → a.length = o.length) (hne : o ≠ []) (hax : ax' = none ∨ ax = none ∨ ax' = ax) :
    Space.copyWith ⟨⟨some o, ax⟩, some (o.zip pieces), ax.map (·.zip pieces)⟩ (some o) ax' =
      .ok ⟨⟨some o, ax'⟩, some (o.zip pieces), ax'.map (·.zip pieces)⟩ := by
  unfold Space.copyWith Space.make
  rw [coords_make_some hne hlen]
  rcases hax with rfl | rfl | rfl
  · simp [normaliseDict, pickOrDerive, filter_zip_self]
  · cases ax' with
    | none => simp [normaliseDict, pickOrDerive, filter_zip_self]
    | some a => simp [normaliseDict, pickOrDerive, filter_zip_self, deriveDict_zip (hlen a rfl) (ha a rfl) ho]
  · cases ax' with
    | none => simp [normaliseDict, pickOrDerive, filter_zip_self]
    | some a => simp [normaliseDict, pickOrDerive, filter_zip_self]

/-- Putting coordinates on a space with the same observables in the same order. -/
theorem withCoords_zip {o : List String} {ax : Option (List Int)} {a : List Int} {pieces : List Lim} (ho : o.Nodup) (ha : a.Nodup)
    (hax : ∀ l, ax = some l → l.Nodup ∧ l.length = o.length)
    (hlen : a.length = o.length) (hne : o ≠ []) (sup sub : Bool) :
    Space.withCoords ⟨⟨some o, ax⟩, some (o.zip pieces), ax.map (·.zip pieces)⟩ ⟨some o, some a⟩ sup sub =
      .ok ⟨⟨some o, some a⟩, some (o.zip pieces), some (a.zip pieces)⟩ := by
  obtain ⟨ax1, hw1, hn1, hs1⟩ := coords_withObs_same (own := o) (co := o) (ax := ax) (sup := sup) (sub := sub) hne (fun _ => id) (fun _ => id)
    ho ho (fun l hl => (hax l hl).2)
  have hax1 : ax1 = ax := by
    cases ax with
    | none => exact hn1 rfl
    | some l =>
      obtain ⟨a', ha', -, h⟩ := hs1 l rfl
      rw [ha', h rfl]
  subst hax1
  obtain ⟨ax2, hw2, -, hs2⟩ := coords_withObs_same (own := o) (co := o) (ax := some a) (sup := sup) (sub := sub) hne (fun _ => id) (fun _ => id)
    ho ho (fun l hl => by cases hl; exact hlen)
  obtain ⟨a', rfl, -, haa⟩ := hs2 a rfl
  rw [haa rfl] at hw2
  have c1 := copyWith_zip (pieces := pieces) (ax := ax1) (ax' := ax1) ho (fun l hl => (hax l hl).1) (fun l hl => (hax l hl).2) hne (.inr (.inr rfl))
  have c2 := copyWith_zip (pieces := pieces) (ax := ax1) (ax' := none) ho (fun l hl => by cases hl) (fun l hl => by cases hl) hne (.inl rfl)
  have c3 := copyWith_zip (pieces := pieces) (ax := none) (ax' := some a) ho (fun l hl => by cases hl; exact ha)
    (fun l hl => by cases hl; exact hlen) hne (.inr (.inl rfl))
  simp only [Option.map_none, Option.map_some] at c2 c3
  simp only [Space.withCoords, Space.withObs]
  cases ax1 with
  | none =>
    simp only [Option.map_none] at c1 ⊢
    simp [hw1, c1, Space.dropAxes, hw2, Space.withAxes, hlen, c3]
  | some l =>
    simp only [Option.map_some] at c1 c2 ⊢
    simp [hw1, c1, Space.dropAxes, c2, hw2, Space.withAxes, hlen, c3]

theorem make_ne {o : List String} {a : Option (List Int)} {lim : LimIn} {s : Space} (h : Space.make (some o) a lim = .ok s) : o ≠ [] := by
  rintro rfl
  unfold Space.make at h
  simp only [bind_eq_ok] at h
  obtain ⟨c, hc, -⟩ := h
  cases a with
  | none => simp [Coords.make, falsy] at hc
  | some a =>
    cases a with
    | nil => simp [Coords.make, falsy] at hc
    | cons x a => simp [Coords.make, falsy] at hc

theorem range_length (o : List String) : (rangeAxes o.length).length = o.length := by simp [rangeAxes]

/-- The space of a PDF made on a space without axes: the same, with the axes 0, 1, ... -/
theorem ownSpace_eq {o : List String} (ho : o.Nodup) {lim : LimIn} (hl : lim.Plain) {s : Space}
    (hs : Space.make (some o) none lim = .ok s) : ownSpace s = Space.make (some o) (some (rangeAxes o.length)) lim := by
  have hne := make_ne hs
  have hlen : (rangeAxes o.length).length = o.length := range_length o
  rw [make_form ho (fun a h => by cases h) (fun a h => by cases h) hne hl] at hs
  rw [make_form ho (fun a h => by cases h; exact rangeAxes_nodup _) (fun a h => by cases h; exact hlen) hne hl]
  cases hp : limitPieces o.length lim with
  | error e => rw [hp] at hs; cases hs
  | ok pieces =>
    rw [hp] at hs
    cases hs
    have c3 := copyWith_zip (pieces := pieces) (ax := none) (ax' := some (rangeAxes o.length)) ho (fun l hl => by cases hl; exact rangeAxes_nodup _)
      (fun l hl => by cases hl; exact hlen) hne (.inr (.inl rfl))
    simp only [Option.map_none, Option.map_some] at c3 ⊢
    unfold ownSpace Space.withAutofillAxes Coords.withAutofillAxes
    simp only [falsy, Coords.nObs]
    rw [if_neg (by simp), coords_make_some hne (fun a h => by cases h; exact hlen)]
    simpa [Except.map] using c3

/-! ### Limits by name -/

theorem withCoords_by_name {s : Space} {lims : List (Rat × Rat)} {so co : List String} {ca : List Int} {sup sub : Bool} (h : Inv s lims)
    (hso : s.coords.obs = some so) (h1 : ∀ x ∈ co, x ∈ so) (h2 : ∀ x ∈ so, x ∈ co) (hco : co.Nodup) (hca : ca.Nodup) (hlen : ca.length = co.length) :
    ∃ s' lims', s.withCoords ⟨some co, some ca⟩ sup sub = .ok s' ∧ s'.coords = ⟨some co, some ca⟩ ∧ Inv s' lims' ∧
      ∀ x ∈ co, dictGet (co.zip lims') x = dictGet (so.zip lims) x := by
  obtain ⟨s', hs', hc'⟩ := withCoords_same (sup := sup) (sub := sub) h hso h1 h2 hco hlen
  obtain ⟨idx, lims', hp, hi, ho, -⟩ := withCoords_step h (fun l hl => by cases hl; exact hco) (fun l hl => by cases hl; exact hca) hs'
  obtain ⟨o', ho', hp'⟩ := ho trivial so hso
  rw [hc'] at ho'
  cases ho'
  obtain ⟨hsl, hsn, -⟩ := h.obs so hso
  exact ⟨s', lims', hs', hc', hi, fun x hx => hp'.dictGet hsn hp hsl x hx⟩

theorem dictGet_zip_inj {o : List String} {a b : List (Rat × Rat)} (ho : o.Nodup) (ha : o.length = a.length) (hb : o.length = b.length)
    (h : ∀ x ∈ o, dictGet (o.zip a) x = dictGet (o.zip b) x) : a = b := by
  apply List.ext_getElem?
  intro i
  by_cases hi : i < o.length
  · have hm : o[i] ∈ o := List.getElem_mem hi
    have := h _ hm
    rw [dictGet_zip ha hm, dictGet_zip hb hm, ho.idxOf_getElem i hi] at this
    exact this
  · rw [List.getElem?_eq_none (by omega), List.getElem?_eq_none (by omega)]

theorem dictGet_zip_map {o : List String} {a : List (Rat × Rat)} (f : Rat × Rat → Rat) (ha : o.length = a.length) {x : String} (hx : x ∈ o) :
    dictGet (o.zip (a.map f)) x = (dictGet (o.zip a) x).map f := by
  rw [dictGet_zip (by simpa using ha) hx, dictGet_zip ha hx, List.getElem?_map]

/-- The space of a PDF made on a space of the observables `o` has these observables, at the axes 0, 1, ... -/
theorem own_exists {o : List String} (ho : o.Nodup) {lim : LimIn} (hl : lim.Plain) {S : Space} (hS : Space.make (some o) none lim = .ok S) :
    ∃ own, ownSpace S = .ok own ∧ own.coords = ⟨some o, some (rangeAxes o.length)⟩ ∧
      Space.make (some o) (some (rangeAxes o.length)) lim = .ok own := by
  have hne := make_ne hS
  have hown := ownSpace_eq ho hl hS
  rw [make_form ho (fun a h => by cases h) (fun a h => by cases h) hne hl] at hS
  rw [hown, make_form ho (fun a h => by cases h; exact rangeAxes_nodup _) (fun a h => by cases h; exact range_length o) hne hl]
  cases hp : limitPieces o.length lim with
  | error e => rw [hp] at hS; cases hS
  | ok pieces => exact ⟨_, rfl, rfl, rfl⟩

/-- C284, the space of the PDF.  If no norm is given at creation, the norm is the space the PDF was made on. -/
theorem norm_default (o : List String) (lower upper : List Rat) (S : Space) (ho : o.Nodup)
    (hS : Space.make (some o) none (.rect lower upper) = .ok S) :
    ∃ own, ownSpace S = .ok own ∧ initNorm own .none = .ok own ∧ own.coords.obs = some o ∧ own.rectLimits = .ok (lower, upper) := by
  obtain ⟨own, h1, h2, h3⟩ := own_exists ho (lim := .rect lower upper) trivial hS
  obtain ⟨hi, -, hlen, -⟩ := make_rect_inv (o := some o) (fun l h => by cases h; exact ho) (fun l h => by cases h; exact rangeAxes_nodup _) h3
  refine ⟨own, h1, rfl, by rw [h2], ?_⟩
  rw [hi.rectLimits, List.map_fst_zip (by omega), List.map_snd_zip (by omega)]

/-- C284, a space that has axes already.  The PDF numbers its observables itself: its space has the axes 0, 1, ... whatever the axes given, the
same observables in the same order with the same limits, and this is the norm. -/
theorem norm_default_axes (o : List String) (a : List Int) (lower upper : List Rat) (S : Space) (ho : o.Nodup) (ha : a.Nodup)
    (hlen : a.length = o.length) (hS : Space.make (some o) (some a) (.rect lower upper) = .ok S) :
    ∃ own, ownSpace S = .ok own ∧ initNorm own .none = .ok own ∧ own.coords = ⟨some o, some (rangeAxes o.length)⟩ ∧
      own.rectLimits = .ok (lower, upper) := by
  have hne := make_ne hS
  obtain ⟨hi, -, hll, -⟩ := make_rect_inv (o := some o) (a := some a) (fun l h => by cases h; exact ho) (fun l h => by cases h; exact ha) hS
  have hr := hi.rectLimits
  rw [List.map_fst_zip (by omega), List.map_snd_zip (by omega)] at hr
  rw [make_form ho (fun l h => by cases h; exact ha) (fun l h => by cases h; exact hlen) hne (lim := .rect lower upper) trivial] at hS
  cases hp : limitPieces o.length (.rect lower upper) with
  | error e => rw [hp] at hS; cases hS
  | ok pieces =>
    rw [hp] at hS
    cases hS
    refine ⟨⟨⟨some o, some (rangeAxes o.length)⟩, some (o.zip pieces), some ((a.zip pieces).filter fun p => decide (p.1 ∈ rangeAxes o.length))⟩,
      ?_, rfl, rfl, hr⟩
    unfold ownSpace Space.withAutofillAxes Coords.withAutofillAxes
    simp only [falsy, Coords.nObs]
    rw [if_neg (by simp), coords_make_some hne (fun l h => by cases h; exact range_length o)]
    unfold Space.copyWith Space.make
    simp only [except_bind_ok, Option.isNone_some, Bool.or_true, if_true]
    rw [coords_make_some hne (fun l h => by cases h; exact range_length o)]
    simp [normaliseDict, pickOrDerive, filter_zip_self]

/-- C284: the axes a space was given make no difference to any norm given at creation: it is the norm, or the error, of a PDF made on the space of
the same observables without axes. -/
theorem norm_at_creation_axes (o : List String) (a : List Int) (lim : LimIn) (lower upper : List Rat) (S S' own own' : Space) (ho : o.Nodup)
    (ha : a.Nodup) (hlen : a.length = o.length) (hl : lim.Plain) (hS : Space.make (some o) (some a) (.rect lower upper) = .ok S)
    (hS' : Space.make (some o) none lim = .ok S') (hown : ownSpace S = .ok own) (hown' : ownSpace S' = .ok own') (n : NormIn) (hn : n ≠ .none) :
    initNorm own n = initNorm own' n := by
  obtain ⟨o1, h1, -, hc, -⟩ := norm_default_axes o a lower upper S ho ha hlen hS
  obtain ⟨o2, h2, hc', -⟩ := own_exists ho hl hS'
  rw [hown] at h1
  rw [hown'] at h2
  cases h1
  cases h2
  cases n with
  | none => exact absurd rfl hn
  | false => simp only [initNorm, hc, hc']
  | rect l u => simp only [initNorm, hc, hc']
  | space s => simp only [initNorm, hc, hc']

example : ((Space.make (some ["x", "y"]) (some [1, 0]) (.rect [0, 1] [10, 11])).bind ownSpace).bind
    (fun own => own.rectLimits.map fun r => (own.coords.axes, r)) = .ok (some [0, 1], [0, 1], [10, 11]) := by decide +kernel

/-- C284, numbers.  Lower and upper limits given at creation are taken in the order of the observables of the PDF.  They are accepted if and only if
there is one of each for every observable and every lower limit is below the upper one. -/
theorem norm_at_creation_numbers (o : List String) (lim : LimIn) (lower upper : List Rat) (S own : Space) (ho : o.Nodup) (hl : lim.Plain)
    (hS : Space.make (some o) none lim = .ok S) (hown : ownSpace S = .ok own) :
    ((∃ s, initNorm own (.rect lower upper) = .ok s) ↔
      lower.length = o.length ∧ upper.length = o.length ∧ ∀ p ∈ lower.zip upper, p.1 < p.2) ∧
    ∀ s, initNorm own (.rect lower upper) = .ok s → s.coords = own.coords ∧ s.rectLimits = .ok (lower, upper) := by
  obtain ⟨own', h1, h2, h3⟩ := own_exists ho hl hS
  rw [hown] at h1
  cases h1
  have hne := make_ne hS
  simp only [initNorm, h2]
  constructor
  · rw [make_form (lim := .rect lower upper) ho (fun a h => by cases h; exact rangeAxes_nodup _) (fun a h => by cases h; exact range_length o) hne trivial]
    constructor
    · rintro ⟨s, hs⟩
      cases hp : limitPieces o.length (.rect lower upper) with
      | error e => rw [hp] at hs; cases hs
      | ok pieces =>
        simp only [limitPieces] at hp
        split at hp
        · cases hp
        · split at hp
          · cases hp
          · split at hp
            · cases hp
            · rename_i e1 e2 e3
              simp only [ne_eq, not_not] at e1 e2
              refine ⟨e2, by omega, fun p hp => ?_⟩
              have e4 : (List.zipWith (fun l u => decide (l < u)) lower upper).all id = true := by simpa using e3
              rw [List.all_eq_true] at e4
              have := e4 (decide (p.1 < p.2)) (by
                rw [← List.map_uncurry_zip_eq_zipWith]
                exact List.mem_map.2 ⟨p, hp, rfl⟩)
              simpa using this
    · rintro ⟨e1, e2, e3⟩
      have e4 : (List.zipWith (fun l u => decide (l < u)) lower upper).all id = true := by
        rw [List.all_eq_true]
        intro b hb
        rw [← List.map_uncurry_zip_eq_zipWith] at hb
        obtain ⟨p, hp, rfl⟩ := List.mem_map.1 hb
        exact decide_eq_true (e3 p hp)
      simp only [limitPieces]
      rw [if_neg (by omega), if_neg (by omega), if_neg (by simpa using e4)]
      exact ⟨_, rfl⟩
  · intro s hs
    obtain ⟨hi, hc, hlen, -⟩ := make_rect_inv (o := some o) (fun l h => by cases h; exact ho) (fun l h => by cases h; exact rangeAxes_nodup _) hs
    refine ⟨hc, ?_⟩
    rw [hi.rectLimits, List.map_fst_zip (by omega), List.map_snd_zip (by omega)]

/-- C284, spaces.  A space given at creation is accepted if and only if it has the observables of the PDF, in any order.  The norm then has the
observables of the PDF in its order, each with the limits that space gives it. -/
theorem norm_at_creation_space (o o' : List String) (a' : Option (List Int)) (lim : LimIn) (lower upper : List Rat) (S own t : Space) (ho : o.Nodup)
    (ho' : o'.Nodup) (ha' : ∀ l, a' = some l → l.Nodup) (hl : lim.Plain)
    (hS : Space.make (some o) none lim = .ok S) (hown : ownSpace S = .ok own) (ht : Space.make (some o') a' (.rect lower upper) = .ok t) :
    (¬ (∀ x, x ∈ o ↔ x ∈ o') → initNorm own (.space t) = .error .valueError) ∧
    ((∀ x, x ∈ o ↔ x ∈ o') → ∃ s lower' upper', initNorm own (.space t) = .ok s ∧ s.coords = own.coords ∧ s.rectLimits = .ok (lower', upper') ∧
      ∀ x ∈ o, dictGet (o.zip lower') x = dictGet (o'.zip lower) x ∧ dictGet (o.zip upper') x = dictGet (o'.zip upper) x) := by
  obtain ⟨own', h1, h2, h3⟩ := own_exists ho hl hS
  rw [hown] at h1
  cases h1
  obtain ⟨hi, hc, hlen, -⟩ := make_rect_inv (o := some o') (fun l h => by cases h; exact ho') ha' ht
  have hto : t.coords.obs = some o' := by rw [hc]
  constructor
  · intro hn
    simp only [initNorm, hto, h2]
    rw [if_pos]
    simp only [otherSet, Bool.not_eq_true', Bool.and_eq_false_iff]
    by_contra hcon
    push Not at hcon
    apply hn
    intro x
    have e1 : o'.all (· ∈ o) = true := by simpa using hcon.1
    have e2 : o.all (· ∈ o') = true := by simpa using hcon.2
    rw [List.all_eq_true] at e1 e2
    exact ⟨fun hx => by simpa using e2 x hx, fun hx => by simpa using e1 x hx⟩
  · intro hs
    obtain ⟨s, lims', hw, hcs, hi', hn⟩ := withCoords_by_name (sup := true) (sub := true) hi hto (fun x hx => (hs x).1 hx) (fun x hx => (hs x).2 hx) ho
      (rangeAxes_nodup o.length) (range_length o)
    have hol : o.length = lims'.length := by rw [(hi'.obs o (by rw [hcs])).1]
    have hol' : o'.length = (lower.zip upper).length := by rw [(hi.obs o' hto).1]
    refine ⟨s, lims'.map (·.1), lims'.map (·.2), ?_, by rw [hcs, h2], hi'.rectLimits, fun x hx => ⟨?_, ?_⟩⟩
    · simp only [initNorm, hto, h2]
      rw [if_neg]
      · exact hw
      · simp only [otherSet, Bool.not_eq_true', Bool.and_eq_false_iff, not_or, Bool.not_eq_false]
        constructor
        · rw [List.all_eq_true]
          exact fun x hx => by simpa using (hs x).2 hx
        · rw [List.all_eq_true]
          exact fun x hx => by simpa using (hs x).1 hx
    · rw [dictGet_zip_map (·.1) hol hx, hn x hx, ← dictGet_zip_map (·.1) hol' ((hs x).1 hx), List.map_fst_zip (by omega)]
    · rw [dictGet_zip_map (·.2) hol hx, hn x hx, ← dictGet_zip_map (·.2) hol' ((hs x).1 hx), List.map_snd_zip (by omega)]

/-- C284, `False`.  `norm=False` at creation: there is no normalisation for any observable. -/
theorem norm_at_creation_false (o : List String) (lim : LimIn) (S own : Space) (ho : o.Nodup) (hl : lim.Plain)
    (hS : Space.make (some o) none lim = .ok S) (hown : ownSpace S = .ok own) :
    ∃ s, initNorm own .false = .ok s ∧ s.coords = own.coords ∧ s.limitsAreSet = true ∧ s.limitsAreFalse = true ∧ s.hasLimits = false := by
  obtain ⟨own', h1, h2, h3⟩ := own_exists ho hl hS
  rw [hown] at h1
  cases h1
  have hne := make_ne hS
  simp only [initNorm, h2]
  rw [make_form (lim := .false) ho (fun a h => by cases h; exact rangeAxes_nodup _) (fun a h => by cases h; exact range_length o) hne trivial]
  simp only [limitPieces, Except.map]
  have hv : ∀ v ∈ (o.zip (List.replicate o.length Lim.off)).map (·.2), v = Lim.off := by
    intro v hv
    obtain ⟨p, hp, rfl⟩ := List.mem_map.1 hv
    exact List.eq_of_mem_replicate (List.of_mem_zip (a := p.1) (b := p.2) hp).2
  refine ⟨_, rfl, rfl, ?_, ?_, ?_⟩
  · simp only [Space.limitsAreSet, Space.limValues, Option.getD_some, List.all_eq_true]
    intro v h
    rw [hv v h]; rfl
  · simp only [Space.limitsAreFalse, Space.limValues, Option.getD_some, List.all_eq_true]
    intro v h
    rw [hv v h]; rfl
  · simp only [Space.hasLimits, Space.limitsAreFalse, Space.limValues, Option.getD_some]
    rw [Bool.and_eq_false_iff]
    right
    simp only [Bool.not_eq_false', List.all_eq_true]
    intro v h
    rw [hv v h]; rfl

/-! ### The same in a call -/

theorem make_then_coords {o : List String} {a : List Int} (ho : o.Nodup) (ha : a.Nodup) (hlen : a.length = o.length) (hne : o ≠ [])
    {lim : LimIn} (hl : lim.Plain) (sup sub : Bool) :
    (Space.make (some o) none lim >>= fun s => s.withCoords ⟨some o, some a⟩ sup sub) = Space.make (some o) (some a) lim := by
  rw [make_form ho (fun a h => by cases h) (fun a h => by cases h) hne hl,
    make_form ho (fun b h => by cases h; exact ha) (fun b h => by cases h; exact hlen) hne hl]
  cases limitPieces o.length lim with
  | error e => rfl
  | ok pieces => exact withCoords_zip (ax := none) ho ha (fun l h => by cases h) hlen hne sup sub

theorem coords_again {o : List String} {a : List Int} (ho : o.Nodup) (ha : a.Nodup) (hlen : a.length = o.length) (hne : o ≠ [])
    {lim : LimIn} (hl : lim.Plain) {s : Space} (hs : Space.make (some o) (some a) lim = .ok s) (sup sub : Bool) :
    s.withCoords ⟨some o, some a⟩ sup sub = .ok s := by
  rw [make_form ho (fun b h => by cases h; exact ha) (fun b h => by cases h; exact hlen) hne hl] at hs
  cases hp : limitPieces o.length lim with
  | error e => rw [hp] at hs; cases hs
  | ok pieces =>
    rw [hp] at hs
    cases hs
    exact withCoords_zip (ax := some a) ho ha (fun l h => by cases h; exact ⟨ha, hlen⟩) hlen hne sup sub

theorem make_off_set {o : List String} {a : List Int} {s : Space} (ho : o.Nodup) (ha : a.Nodup) (hlen : a.length = o.length) (hne : o ≠ [])
    (hs : Space.make (some o) (some a) .false = .ok s) : s.limitsAreSet = true := by
  rw [make_form (lim := .false) ho (fun b h => by cases h; exact ha) (fun b h => by cases h; exact hlen) hne trivial] at hs
  simp only [limitPieces, Except.map] at hs
  cases hs
  simp only [Space.limitsAreSet, Space.limValues, Option.getD_some, List.all_eq_true]
  intro v h
  obtain ⟨p, hp, rfl⟩ := List.mem_map.1 h
  rw [List.eq_of_mem_replicate (List.of_mem_zip (a := p.1) (b := p.2) hp).2]
  rfl

theorem Inv.isSet {s : Space} {lims : List (Rat × Rat)} (h : Inv s lims) : s.limitsAreSet = true := by
  have := h.hasLimits
  simp only [Space.hasLimits, Bool.and_eq_true] at this
  exact this.1.1

/-- The limits a range has for the observables, and whether it stands for no normalisation. -/
def SameRange (x y : Except Err Space) : Prop :=
  ∃ s t, x = .ok s ∧ y = .ok t ∧ s.coords = t.coords ∧ s.limitsAreSet = t.limitsAreSet ∧ s.limitsAreFalse = t.limitsAreFalse ∧ s.rectLimits = t.rectLimits

theorem inputNorm_plain {own norm : Space} {n : NormIn} {b : Bool} (h : n ≠ .none) (hs : ∀ s, n ≠ .space s) : inputNorm own norm n b = convertSort own n := by
  cases n with
  | none => exact absurd rfl h
  | space s => exact absurd rfl (hs s)
  | false => rfl
  | rect l u => rfl

/-- C285 holds for `False`, for the limits of a PDF of one observable, and for spaces with the observables of the PDF in any order: a norm given in
a call is the same as the norm given at creation, whatever norm was given at creation.
Missing from the full claim: limits of several observables given as numbers and spaces of other observables, for which it is false
(`norm_call_numbers_violated`, `norm_call_space_violated`). -/
theorem norm_call_partial (o : List String) (lim : LimIn) (S own norm : Space) (n0 n : NormIn) (b : Bool) (ho : o.Nodup) (hl : lim.Plain)
    (hS : Space.make (some o) none lim = .ok S) (hown : ownSpace S = .ok own) (hnorm : initNorm own n0 = .ok norm)
    (hn : n = .false ∨ (∃ x l u, o = [x] ∧ l < u ∧ n = .rect [l] [u]) ∨
      ∃ o' a' lower upper t, n = .space t ∧ Space.make (some o') a' (.rect lower upper) = .ok t ∧ o'.Nodup ∧ (∀ l, a' = some l → l.Nodup) ∧
        ∀ x, x ∈ o ↔ x ∈ o') :
    SameRange (rangeOfCall S n .none b) (rangeOfCall S n0 n b) := by
  obtain ⟨own', h1, h2, h3⟩ := own_exists ho hl hS
  rw [hown] at h1
  cases h1
  have hne := make_ne hS
  have hr0 : rangeOfCall S n0 n b = inputNorm own norm n b := by
    simp [rangeOfCall, hown, hnorm]
  rw [hr0]
  rcases hn with rfl | ⟨x, l, u, rfl, hlu, rfl⟩ | ⟨o', a', lower, upper, t, rfl, ht, ho', ha', hs⟩
  · obtain ⟨s, hs, hc, -⟩ := norm_at_creation_false o lim S own ho hl hS hown
    have hs' := hs
    simp only [initNorm, h2] at hs'
    have hset := make_off_set ho (rangeAxes_nodup _) (range_length o) hne hs'
    have hagain := coords_again (lim := .false) ho (rangeAxes_nodup _) (range_length o) hne trivial hs' true true
    have hm := make_then_coords (lim := .false) ho (rangeAxes_nodup _) (range_length o) hne trivial true true
    refine ⟨s, s, ?_, ?_, rfl, rfl, rfl, rfl⟩
    · simp [rangeOfCall, hown, hs, inputNorm, baseInputNorm, hset, convertSort, fromLimits, h2, hagain]
    · rw [inputNorm_plain (by simp) (by simp)]
      simp only [convertSort, fromLimits, h2]
      rw [hm, hs']
  · have hacc := (norm_at_creation_numbers [x] lim [l] [u] S own ho hl hS hown).1.2 ⟨rfl, rfl, by simpa using hlu⟩
    obtain ⟨s, hs⟩ := hacc
    have hs' := hs
    simp only [initNorm, h2] at hs'
    obtain ⟨hi, -⟩ := make_rect_inv (o := some [x]) (fun l h => by cases h; exact ho) (fun l h => by cases h; exact rangeAxes_nodup _) hs'
    have hagain := coords_again (lim := .rect [l] [u]) ho (rangeAxes_nodup _) (range_length _) hne trivial hs' true true
    have hm := make_then_coords (lim := .rect [l] [u]) ho (rangeAxes_nodup _) (range_length _) hne trivial true true
    refine ⟨s, s, ?_, ?_, rfl, rfl, rfl, rfl⟩
    · simp [rangeOfCall, hown, hs, inputNorm, baseInputNorm, hi.isSet, convertSort, fromLimits, h2]
      simpa using hagain
    · rw [inputNorm_plain (by simp) (by simp)]
      simp only [convertSort, fromLimits, h2]
      rw [← hm] at hs'
      cases hmk : Space.make (some [x]) none (.rect [l] [u]) with
      | error e => rw [hmk] at hs'; cases hs'
      | ok s1 =>
        rw [hmk] at hs'
        obtain ⟨-, hc1, -⟩ := make_rect_inv (o := some [x]) (fun l h => by cases h; exact ho) (fun l h => by cases h) hmk
        simpa [hc1, Coords.nObs] using hs'
  · obtain ⟨hi, hc, hlen, -⟩ := make_rect_inv (o := some o') (fun l h => by cases h; exact ho') ha' ht
    have hto : t.coords.obs = some o' := by rw [hc]
    obtain ⟨s, lims', hw, hcs, hi', -⟩ := withCoords_by_name (sup := true) (sub := true) hi hto (fun x hx => (hs x).1 hx) (fun x hx => (hs x).2 hx) ho
      (rangeAxes_nodup o.length) (range_length o)
    obtain ⟨s2, lims2, hw2, hcs2, hi2, hn2⟩ := withCoords_by_name (so := o) (sup := true) (sub := true) hi' (by rw [hcs]) (fun x hx => hx) (fun x hx => hx) ho
      (rangeAxes_nodup o.length) (range_length o)
    have e1 : o.length = lims'.length := by rw [(hi'.obs o (by rw [hcs])).1]
    have e2 : o.length = lims2.length := by rw [(hi2.obs o (by rw [hcs2])).1]
    have hle : lims2 = lims' := dictGet_zip_inj ho e2 e1 hn2
    subst hle
    obtain ⟨s', _, _, hinit, -⟩ := (norm_at_creation_space o o' a' lim lower upper S own t ho ho' ha' hl hS hown ht).2 hs
    have hss : s' = s := by
      have := hinit
      simp only [initNorm, hto, h2] at this
      split at this
      · cases this
      · rw [hw] at this
        cases this; rfl
    subst hss
    have hf : ∀ q : Space, Inv q lims2 → q.limitsAreFalse = false := by
      intro q hq
      have := hq.hasLimits.1
      simp only [Space.hasLimits, Bool.and_eq_true, Bool.not_eq_true'] at this
      exact this.2
    refine ⟨s2, s', ?_, ?_, by rw [hcs2, hcs], by rw [hi2.isSet, hi'.isSet], by rw [hf _ hi2, hf _ hi'], by rw [hi2.rectLimits, hi'.rectLimits]⟩
    · simp [rangeOfCall, hown, hinit, inputNorm, baseInputNorm, hi'.isSet, convertSort, fromLimits, h2, hw2]
    · simp [inputNorm, baseInputNorm, hi.isSet, convertSort, fromLimits, h2, hw]

/-- C285 for `limits` of `integrate` and `sample`: a space with the observables of the PDF in any order is taken by name. -/
theorem limits_in_call_by_name (o o' : List String) (a' : Option (List Int)) (lim : LimIn) (lower upper : List Rat) (S own t : Space) (b : Bool)
    (ho : o.Nodup) (ho' : o'.Nodup) (ha' : ∀ l, a' = some l → l.Nodup) (hl : lim.Plain) (hS : Space.make (some o) none lim = .ok S)
    (hown : ownSpace S = .ok own) (ht : Space.make (some o') a' (.rect lower upper) = .ok t) (hs : ∀ x, x ∈ o ↔ x ∈ o') :
    ∃ s lower' upper', inputLimits own (.space t) b = .ok s ∧ s.coords = own.coords ∧ s.rectLimits = .ok (lower', upper') ∧
      ∀ x ∈ o, dictGet (o.zip lower') x = dictGet (o'.zip lower) x ∧ dictGet (o.zip upper') x = dictGet (o'.zip upper) x := by
  obtain ⟨s, lower', upper', hinit, h4, h5, h6⟩ := (norm_at_creation_space o o' a' lim lower upper S own t ho ho' ha' hl hS hown ht).2 hs
  refine ⟨s, lower', upper', ?_, h4, h5, h6⟩
  obtain ⟨hi, hc, -⟩ := make_rect_inv (o := some o') (fun l h => by cases h; exact ho') ha' ht
  obtain ⟨own', h1, h2, h3⟩ := own_exists ho hl hS
  rw [hown] at h1
  cases h1
  have hto : t.coords.obs = some o' := by rw [hc]
  simp only [initNorm, hto, h2] at hinit
  split at hinit
  · cases hinit
  · simp only [inputLimits, hi.hasLimits.1, Bool.not_true, Bool.false_and, convertSort, fromLimits, h2]
    simpa using hinit

/-- C285 is violated by numbers: the limits of two observables are accepted as the norm at creation but not in a call. -/
theorem norm_call_numbers_violated :
    ∃ S : Space, Space.make (some ["x", "y"]) none (.rect [0, 0] [1, 1]) = .ok S ∧
      (rangeOfCall S (.rect [0, 2] [1, 3]) .none false >>= fun s => s.rectLimits) = .ok ([0, 2], [1, 3]) ∧
      rangeOfCall S .none (.rect [0, 2] [1, 3]) false = .error .limitsUnderdefined := by
  refine ⟨_, rfl, ?_, ?_⟩ <;> decide +kernel

/-- C285 is violated by spaces of some of the observables: refused as the norm at creation, but accepted in a call, where the range then has no
limits at all for the other observable. -/
theorem norm_call_space_violated :
    ∃ S t : Space, Space.make (some ["x", "y"]) none (.rect [0, 0] [1, 1]) = .ok S ∧ Space.make (some ["x"]) none (.rect [0] [1]) = .ok t ∧
      rangeOfCall S (.space t) .none false = .error .valueError ∧
      (rangeOfCall S .none (.space t) false).map (fun s => s.coords.obs) = .ok (some ["x"]) := by
  refine ⟨_, _, rfl, rfl, ?_, ?_⟩ <;> decide +kernel

/-- A PDF of x and y with a norm given for y and x, with other axes. -/
example : ∃ S t : Space, Space.make (some ["x", "y"]) none (.rect [0, 0] [9, 9]) = .ok S ∧
    Space.make (some ["y", "x"]) (some [4, 7]) (.rect [1, 2] [3, 4]) = .ok t ∧ (∀ x, x ∈ ["x", "y"] ↔ x ∈ ["y", "x"]) ∧
    (rangeOfCall S (.space t) .none false).map (fun s => s.coords) = .ok ⟨some ["x", "y"], some [0, 1]⟩ ∧
    (rangeOfCall S (.space t) .none false >>= fun s => s.rectLimits) = .ok ([2, 1], [4, 3]) := by
  refine ⟨_, _, rfl, rfl, by simp [or_comm], ?_, ?_⟩ <;> decide +kernel

end Zfit.Sp
