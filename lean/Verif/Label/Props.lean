import Verif.Label.Sim

/-!
# Labels of spaces (C293, C294)
-/

namespace Zfit.Lab

open Zfit Zfit.Coord Zfit.Sp

/-- What the space without labels does on a chain of requests. -/
def applySpaceAll (s : Space) : List LReq → Except Err Space
  | [] => .ok s
  | r :: rs => do
    let s' ← applySpace s r
    applySpaceAll s' rs

/-! ## C293 -/

theorem sim_applyAll (reqs : List LReq) {f : String → String} {s : LSpace} (h : Carries f s) (hv : Valid s) :
    Sim (s.space.coords.obs.isSome ∧ ∀ r ∈ reqs, r.Keeps) f (s.applyAll reqs) (applySpaceAll s.space reqs) := by
  induction reqs generalizing f s with
  | nil => exact sim_refl h hv (fun k => k.1)
  | cons r reqs ih =>
    refine sim_bind' (sim_apply h hv r) fun s' g hs' hv' hg hk => ?_
    refine (ih hg hv').retarget (fun k => ?_) (fun k => ?_)
    · exact ⟨(hk ⟨k.1, k.2 r (by simp)⟩).2, fun r' hr' => k.2 r' (by simp [hr'])⟩
    · exact (hk ⟨k.1, k.2 r (by simp)⟩).1

/-- The labels of a list of observables, by position, as a function. -/
def labelFun (o l : List String) (x : String) : String := ((o.zip l).find? (fun p => p.1 = x)).elim x (·.2)

theorem labelFun_map {o l : List String} (hn : o.Nodup) (hl : l.length = o.length) : o.map (labelFun o l) = l := by
  induction o generalizing l with
  | nil => cases l with
    | nil => rfl
    | cons _ _ => simp at hl
  | cons x o ih =>
    cases l with
    | nil => simp at hl
    | cons y l =>
      rw [List.nodup_cons] at hn
      simp only [List.length_cons, Nat.add_right_cancel_iff] at hl
      have h1 : labelFun (x :: o) (y :: l) x = y := by simp [labelFun]
      have h2 : o.map (labelFun (x :: o) (y :: l)) = o.map (labelFun o l) := by
        apply List.map_congr_left
        intro z hz
        have hzx : x ≠ z := fun h => hn.1 (h ▸ hz)
        simp [labelFun, hzx]
      rw [List.map_cons, h1, h2, ih hn.2 hl]

theorem labelFun_mem {o l : List String} (hn : o.Nodup) {x y : String} (h : (x, y) ∈ o.zip l) : labelFun o l x = y := by
  induction o generalizing l with
  | nil => simp at h
  | cons a o ih =>
    cases l with
    | nil => simp at h
    | cons b l =>
      rw [List.nodup_cons] at hn
      simp only [List.zip_cons_cons, List.mem_cons, Prod.mk.injEq] at h
      rcases h with ⟨rfl, rfl⟩ | h
      · simp [labelFun]
      · have hxa : a ≠ x := fun e => hn.1 (e ▸ (List.of_mem_zip h).1)
        have := ih hn.2 h
        simpa [labelFun, hxa] using this

/-- C293: a space is made with one label per observable and changed by any number of requests, none of which takes the observables away.
The result has observables, and one label for each of them; an observable has the label that it had at the start. -/
theorem labels_follow {o : List String} {axes : Option (List Int)} {lim : LimIn} {l : List String} {s0 s : LSpace} {reqs : List LReq}
    (hn : o.Nodup) (h0 : LSpace.make (some o) axes lim (some l) = .ok s0) (hr : ∀ r ∈ reqs, r.Keeps) (hs : s0.applyAll reqs = .ok s) :
    ∃ o' l', s.space.coords.obs = some o' ∧ s.labels = .ok (some l') ∧ l'.length = o'.length ∧
      ∀ x y y', (x, y) ∈ o'.zip l' → (x, y') ∈ o.zip l → y = y' := by
  have hl : l.length = o.length := by
    unfold LSpace.make at h0
    simp only [bind_eq_ok] at h0
    obtain ⟨c, hc, st, hst, -⟩ := h0
    have := make_coords hc
    subst this
    by_contra hne
    simp [mkStored, Coords.nObs, hne] at hst
  rw [← labelFun_map hn hl] at h0
  obtain ⟨h1, h2, h3⟩ := make_carries h0
  have hsim := sim_applyAll reqs h1 h2
  rw [hs] at hsim
  cases hu : applySpaceAll s0.space reqs with
  | error e => rw [hu] at hsim; exact hsim.elim
  | ok t =>
    rw [hu] at hsim
    obtain ⟨-, -, g, hg, hk⟩ := hsim
    obtain ⟨rfl, hsome⟩ := hk ⟨by simp [h3], hr⟩
    obtain ⟨o', ho'⟩ := Option.isSome_iff_exists.1 hsome
    refine ⟨o', o'.map (labelFun o l), ho', by rw [labels_eq hg, ho']; rfl, by simp, fun x y y' hxy hxy' => ?_⟩
    have := zip_map_snd o' _ _ hxy
    exact this.trans (labelFun_mem hn hxy')

/-- Two observables, one label each. -/
def massSpace : Except Err LSpace := LSpace.make (some ["x", "y"]) (some [0, 1]) .none (some ["mass", "angle"])

example : (massSpace.bind (·.applyAll [.req (.withObs (some ["y", "x"]) true true), .req (.subAxes [0]), .limits .none])).bind
    (·.labels) = .ok (some ["mass"]) := by decide +kernel

example : ∃ s, massSpace.bind (·.applyAll [.req (.withObs (some ["y", "x"]) true true), .req (.withAxes none true true)]) = .ok s ∧
    s.labels = .ok (some ["angle", "mass"]) := ⟨_, rfl, by decide +kernel⟩

/-- Without labels given, the labels are the names of the observables. -/
theorem labels_default {o : List String} {axes : Option (List Int)} {lim : LimIn} {s : LSpace}
    (h : LSpace.make (some o) axes lim none = .ok s) : s.labels = .ok (some o) := by
  rw [make_some_default] at h
  have h' : LSpace.make (some o) axes lim (some (o.map id)) = .ok s := by simpa using h
  obtain ⟨h1, -, h3⟩ := make_carries h'
  rw [labels_eq h1, h3]
  simp

/-- `label` of a space of one observable is its label. -/
theorem label_single {x : String} {axes : Option (List Int)} {lim : LimIn} {l : String} {s : LSpace}
    (h : LSpace.make (some [x]) axes lim (some [l]) = .ok s) : s.label = .ok l := by
  have hn : [x].map (labelFun [x] [l]) = [l] := labelFun_map (by simp) rfl
  rw [← hn] at h
  obtain ⟨h1, -, h3⟩ := make_carries h
  simp only [LSpace.label, Coords.nObs, labels_eq h1, h3, Option.map_some, hn, List.length_singleton]
  rfl

/-- `label` of a space of several observables is an error: there is not one label. -/
theorem label_several {o : List String} {axes : Option (List Int)} {lim : LimIn} {label : Option (List String)} {s : LSpace}
    (hn : 1 < o.length) (h : LSpace.make (some o) axes lim label = .ok s) : s.label = .error .valueError := by
  unfold LSpace.make at h
  simp only [bind_eq_ok] at h
  obtain ⟨c, hc, st, hst, t, ht, h⟩ := h
  cases h
  have hc' := make_coords hc
  have : t.coords.obs = some o := by
    have := space_make_coords ht
    rw [this.1]
  simp [LSpace.label, Coords.nObs, this, hn]

example : (massSpace.bind (·.label)) = .error .valueError := by decide +kernel

example : ((LSpace.make (some ["x"]) none .none (some ["mass"])).bind (·.label)) = .ok "mass" := by decide +kernel

/-- A label for every observable, no more, no less. -/
theorem labels_number {o : List String} {axes : Option (List Int)} {lim : LimIn} {l : List String} {c : Coords}
    (hc : Coords.make (some o) axes = .ok c) (h : l.length ≠ o.length) :
    LSpace.make (some o) axes lim (some l) = .error .valueError := by
  have := make_coords hc
  subst this
  simp [LSpace.make, hc, mkStored, Coords.nObs, h]

example : LSpace.make (some ["x", "y"]) none .none (some ["mass"]) = .error .valueError :=
  labels_number (c := ⟨some ["x", "y"], none⟩) rfl (by decide)

/-- Labels have no effect on anything else: whatever the labels, a chain of requests (also those that take the observables away or give
new ones) has the result, or fails with the error, that it has for the space without labels. -/
theorem labels_transparent {o : List String} {axes : Option (List Int)} {lim : LimIn} {l : List String} {s0 : LSpace}
    (hn : o.Nodup) (h0 : LSpace.make (some o) axes lim (some l) = .ok s0) (reqs : List LReq) :
    Space.make (some o) axes lim = .ok s0.space ∧
      (s0.applyAll reqs).map (·.space) = applySpaceAll s0.space reqs := by
  have hl : l.length = o.length := by
    by_contra hne
    unfold LSpace.make at h0
    simp only [bind_eq_ok] at h0
    obtain ⟨c, hc, st, hst, -⟩ := h0
    have := make_coords hc
    subst this
    simp [mkStored, Coords.nObs, hne] at hst
  rw [← labelFun_map hn hl] at h0
  obtain ⟨h1, h2, h3⟩ := make_carries h0
  refine ⟨?_, (sim_applyAll reqs h1 h2).map⟩
  have := make_space_map (labelFun o l) (some o) axes lim
  simp only [Option.map_some] at this
  rw [← this, h0]
  rfl

example : ∃ s, massSpace.bind (·.applyAll [.req (.withObs none true true), .req (.withObs (some ["u", "v"]) true true)]) = .ok s ∧
    s.space.coords = ⟨some ["u", "v"], some [0, 1]⟩ := ⟨_, rfl, by decide +kernel⟩

/-- Taking the observables away takes the labels away; new observables have their names as labels. -/
theorem labels_dropped {o : List String} {axes : Option (List Int)} {lim : LimIn} {l : List String} {s0 s1 s2 s3 : LSpace} {reqs : List LReq}
    {l2 : List String} {sup sub sup' sub' : Bool} (hn : o.Nodup)
    (h0 : LSpace.make (some o) axes lim (some l) = .ok s0) (hr : ∀ r ∈ reqs, r.Keeps) (h1 : s0.applyAll reqs = .ok s1)
    (h2 : s1.withObs none sup sub = .ok s2) (h3 : s2.withObs (some l2) sup' sub' = .ok s3) :
    s2.labels = .ok none ∧ s3.labels = .ok (some l2) := by
  obtain ⟨o', l', ho', -⟩ := labels_follow hn h0 hr h1
  have hno : s2.space.coords.obs = none := by
    unfold LSpace.withObs at h2
    rw [ho'] at h2
    cases ha : s1.space.coords.axes with
    | none => simp [ha] at h2
    | some a =>
      simp only [ha, bind_eq_ok] at h2
      obtain ⟨n, hn, hm⟩ := h2
      exact (make_no_obs hm id).2.2
  have hl2 : s2.labels = .ok none := by simp [LSpace.labels, hno]
  refine ⟨hl2, ?_⟩
  unfold LSpace.withObs at h3
  simp only [bind_eq_ok] at h3
  obtain ⟨c, hc, n, hnl, hm⟩ := h3
  have hc' : c = ⟨some l2, s2.space.coords.axes⟩ := by
    unfold Coords.withObs at hc
    simp only [hno] at hc
    exact make_coords hc
  subst hc'
  simp only [LSpace.newLabels, hl2, except_bind_ok, except_pure, Except.ok.injEq] at hnl
  subst hnl
  exact labels_default hm

example : (massSpace.bind (·.withObs none true true)).bind (·.labels) = .ok none ∧
    ((massSpace.bind (·.withObs none true true)).bind (·.withObs (some ["x", "y"]) true true)).bind (·.labels) =
      .ok (some ["x", "y"]) := by decide +kernel

/-! ## C294 -/

/-- `x` has the label `y` in the space. -/
def HasLabel (s : LSpace) (x y : String) : Prop :=
  ∃ o l, s.space.coords.obs = some o ∧ s.labels = .ok (some l) ∧ (x, y) ∈ o.zip l

/-- The space has the observable. -/
def HasObs (s : LSpace) (x : String) : Prop := ∃ o, s.space.coords.obs = some o ∧ x ∈ o

/-- A space a user can have: made with or without labels, and changed by any requests. -/
def Reachable (s : LSpace) : Prop :=
  ∃ obs axes lim label s0 reqs, LSpace.make obs axes lim label = .ok s0 ∧ (∀ o, obs = some o → o.Nodup) ∧ s0.applyAll reqs = .ok s

theorem make_some_carries {obs : Option (List String)} {axes : Option (List Int)} {lim : LimIn} {label : Option (List String)} {s : LSpace}
    (h : LSpace.make obs axes lim label = .ok s) (hn : ∀ o, obs = some o → o.Nodup) : ∃ f, Carries f s ∧ Valid s := by
  cases obs with
  | none =>
    obtain ⟨h1, h2, -⟩ := make_no_obs h id
    exact ⟨id, h1, h2⟩
  | some o =>
    cases label with
    | none =>
      rw [make_some_default] at h
      have h' : LSpace.make (some o) axes lim (some (o.map id)) = .ok s := by simpa using h
      obtain ⟨h1, h2, -⟩ := make_carries h'
      exact ⟨id, h1, h2⟩
    | some l =>
      have hl : l.length = o.length := by
        by_contra hne
        unfold LSpace.make at h
        simp only [bind_eq_ok] at h
        obtain ⟨c, hc, st, hst, -⟩ := h
        have := make_coords hc
        subst this
        simp [mkStored, Coords.nObs, hne] at hst
      rw [← labelFun_map (hn o rfl) hl] at h
      obtain ⟨h1, h2, -⟩ := make_carries h
      exact ⟨_, h1, h2⟩

theorem Reachable.carries {s : LSpace} (h : Reachable s) : ∃ f, Carries f s ∧ Valid s := by
  obtain ⟨obs, axes, lim, label, s0, reqs, hm, hn, hs⟩ := h
  obtain ⟨f, h1, h2⟩ := make_some_carries hm hn
  have hsim := sim_applyAll reqs h1 h2
  rw [hs] at hsim
  cases hu : applySpaceAll s0.space reqs with
  | error e => rw [hu] at hsim; exact hsim.elim
  | ok t =>
    rw [hu] at hsim
    obtain ⟨-, hv, g, hg, -⟩ := hsim
    exact ⟨g, hg, hv⟩

theorem hasLabel_iff {f : String → String} {s : LSpace} (h : Carries f s) {x y : String} :
    HasLabel s x y ↔ HasObs s x ∧ y = f x := by
  unfold HasLabel HasObs
  rw [labels_eq h]
  cases ho : s.space.coords.obs with
  | none => simp
  | some o =>
    simp only [Option.some.injEq, Option.map_some, Except.ok.injEq, exists_eq_left', exists_and_left]
    constructor
    · intro hz
      exact ⟨(List.of_mem_zip hz).1, zip_map_snd o f _ hz⟩
    · rintro ⟨hx, rfl⟩
      clear ho
      induction o with
      | nil => simp at hx
      | cons a o ih =>
        simp only [List.mem_cons] at hx
        simp only [List.map_cons, List.zip_cons_cons, List.mem_cons]
        rcases hx with rfl | hx
        · exact Or.inl rfl
        · exact Or.inr (ih hx)

/-- What the merged dictionary says: the label in the last space that has the observable. -/
theorem fold_stored {spaces : List LSpace} (hc : ∀ s ∈ spaces, (∃ f, Carries f s) ∧ s.space.coords.obs.isSome)
    (d : List (String × String)) :
    ∃ m, spaces.foldlM addStored d = .ok m ∧ ∀ x,
      (∃ pre s post y, spaces = pre ++ s :: post ∧ (∀ t ∈ post, ¬ HasObs t x) ∧ HasLabel s x y ∧ dictGet m x = some y) ∨
      ((∀ s ∈ spaces, ¬ HasObs s x) ∧ dictGet m x = dictGet d x) := by
  induction spaces generalizing d with
  | nil => exact ⟨d, rfl, fun x => Or.inr ⟨by simp, rfl⟩⟩
  | cons s spaces ih =>
    obtain ⟨⟨f, hf⟩, hsome⟩ := hc s (by simp)
    obtain ⟨o, ho⟩ := Option.isSome_iff_exists.1 hsome
    obtain ⟨e, he, hT⟩ := hf o ho
    obtain ⟨m, hm, hall⟩ := ih (fun t ht => hc t (by simp [ht])) (dictUpdate d e)
    refine ⟨m, ?_, fun x => ?_⟩
    · rw [List.foldlM_cons]
      have : addStored d s = .ok (dictUpdate d e) := by simp [addStored, he]
      rw [this]
      exact hm
    · rcases hall x with ⟨pre, t, post, y, h1, h2, h3, h4⟩ | ⟨h1, h2⟩
      · exact Or.inl ⟨s :: pre, t, post, y, by simp [h1], h2, h3, h4⟩
      · have hg := dictGet_update f e hT.1 d x
        by_cases hx : x ∈ o
        · rw [if_pos ((hT.2 x).2 hx)] at hg
          exact Or.inl ⟨[], s, spaces, f x, rfl, h1, (hasLabel_iff hf).2 ⟨⟨o, ho, hx⟩, rfl⟩, by rw [h2, hg]⟩
        · rw [if_neg (fun h => hx ((hT.2 x).1 h))] at hg
          refine Or.inr ⟨fun t ht => ?_, by rw [h2, hg]⟩
          rcases List.mem_cons.1 ht with rfl | ht
          · rintro ⟨o2, ho2, hx2⟩
            rw [ho] at ho2
            cases ho2
            exact hx hx2
          · exact h1 t ht

theorem commonObs_mem {spaces : List LSpace} (h : ∀ t ∈ spaces, t.space.coords.obs.isSome) :
    ∃ common, commonObs (spaces.map (·.space)) = some common ∧ ∀ x, x ∈ common ↔ ∃ t ∈ spaces, HasObs t x := by
  suffices key : ∀ (spaces : List LSpace) (acc : List String), (∀ t ∈ spaces, t.space.coords.obs.isSome) →
      ∃ common, (spaces.map (·.space)).foldl (fun acc s =>
        match acc, s.coords.obs with
        | some acc, some o => some (o.foldl (fun acc ob => if ob ∈ acc then acc else acc ++ [ob]) acc)
        | _, _ => none) (some acc) = some common ∧ ∀ x, x ∈ common ↔ x ∈ acc ∨ ∃ t ∈ spaces, HasObs t x by
    obtain ⟨common, h1, h2⟩ := key spaces [] h
    exact ⟨common, h1, fun x => by rw [h2 x]; simp⟩
  intro spaces
  induction spaces with
  | nil => intro acc _; exact ⟨acc, rfl, by simp⟩
  | cons s spaces ih =>
    intro acc hall
    obtain ⟨o, ho⟩ := Option.isSome_iff_exists.1 (hall s (by simp))
    obtain ⟨common, h1, h2⟩ := ih (o.foldl (fun acc ob => if ob ∈ acc then acc else acc ++ [ob]) acc)
      (fun t ht => hall t (by simp [ht]))
    refine ⟨common, ?_, fun x => ?_⟩
    · rw [List.map_cons, List.foldl_cons]
      simp only [ho]
      exact h1
    · rw [h2 x, foldl_union_mem, or_assoc]
      have : HasObs s x ↔ x ∈ o := by
        constructor
        · rintro ⟨o', ho', hx⟩
          rw [ho] at ho'
          cases ho'
          exact hx
        · exact fun hx => ⟨o, ho, hx⟩
      simp only [List.mem_cons, exists_eq_or_imp, this]

theorem combineSpaces_obs {spaces : List Space} {common : List String} {s : Space} (hc : commonObs spaces = some common)
    (h : combineSpaces spaces = .ok s) : s.coords.obs = some common := by
  unfold combineSpaces at h
  simp only [hc, bind_eq_ok] at h
  obtain ⟨ts, -, h⟩ := h
  split at h
  · rw [(space_make_coords h).1]
  split at h
  · rw [(space_make_coords h).1]
  split at h
  · cases h
  · simp only [bind_eq_ok] at h
    obtain ⟨st, -, h⟩ := h
    rw [(space_make_coords h).1]

/-- Missing from the full claim: nothing prefers a given label to a default one, spaces without observables and unions lose the labels or
fail (`product_default_wins_violated`, `product_axes_labels_violated`, `union_labels_violated`).
C294 (products): spaces with observables are combined, or fail to combine, whatever their labels are, and in the result an observable has the
label that it has in the last of the spaces that has it. -/
theorem product_labels_partial {byAxes : List Space → Except Err Space} {spaces : List LSpace}
    (hr : ∀ t ∈ spaces, Reachable t ∧ t.space.coords.obs.isSome) :
    (combine byAxes spaces).map (·.space) = combineSpaces (spaces.map (·.space)) ∧
    ∀ r, combine byAxes spaces = .ok r → ∃ o l, r.space.coords.obs = some o ∧ r.labels = .ok (some l) ∧ l.length = o.length ∧
      ∀ x y, (x, y) ∈ o.zip l →
        ∃ pre t post, spaces = pre ++ t :: post ∧ (∀ u ∈ post, ¬ HasObs u x) ∧ HasLabel t x y := by
  obtain ⟨common, hcm, hmem⟩ := commonObs_mem (fun t ht => (hr t ht).2)
  obtain ⟨m, hm, hall⟩ := fold_stored (spaces := spaces) (fun t ht => by
    obtain ⟨f, hf, -⟩ := (hr t ht).1.carries
    exact ⟨⟨f, hf⟩, (hr t ht).2⟩) []
  have hget : ∀ x ∈ common, ∃ pre t post y, spaces = pre ++ t :: post ∧ (∀ u ∈ post, ¬ HasObs u x) ∧ HasLabel t x y ∧
      dictGet m x = some y := by
    intro x hx
    rcases hall x with h | ⟨h1, h2⟩
    · exact h
    · obtain ⟨t, ht, hxt⟩ := (hmem x).1 hx
      exact absurd hxt (h1 t ht)
  let g : String → String := fun x => (dictGet m x).getD ""
  have hg : ∀ x ∈ common, (Stored.map m).get x = .ok (g x) := by
    intro x hx
    obtain ⟨_, _, _, y, _, _, _, h4⟩ := hget x hx
    simp [Stored.get, g, h4]
  have hls : common.mapM (Stored.map m).get = .ok (common.map g) := mapM_ok_of_forall _ _ _ hg
  cases hs : combineSpaces (spaces.map (·.space)) with
  | error e =>
    have : combine byAxes spaces = .error e := by
      simp only [combine, hm, hcm, hs, except_bind_ok, except_bind_error]
    rw [this]
    exact ⟨rfl, fun r hr => by cases hr⟩
  | ok s =>
    have hso := combineSpaces_obs hcm hs
    have hst : mkStored s.coords (some (common.map g)) = .ok (.map (dictOf (common.zip (common.map g)))) := by
      simp [mkStored, Coords.nObs, hso]
    have hcomb : combine byAxes spaces = .ok ⟨s, .map (dictOf (common.zip (common.map g)))⟩ := by
      simp only [combine, hm, hcm, hs, hls, hst, except_bind_ok, except_pure]
    rw [hcomb]
    refine ⟨rfl, fun r hr' => ?_⟩
    cases hr'
    refine ⟨common, common.map g, hso, ?_, by simp, ?_⟩
    · have hcar : Carries g ⟨s, .map (dictOf (common.zip (common.map g)))⟩ := by
        intro o ho
        simp only [hso, Option.some.injEq] at ho
        subst ho
        exact ⟨_, rfl, table_dictOf _ _⟩
      rw [labels_eq hcar]
      simp [hso]
    · intro x y hxy
      obtain ⟨pre, t, post, y', h1, h2, h3, h4⟩ := hget x (List.of_mem_zip hxy).1
      have : y = g x := zip_map_snd common g _ hxy
      have hy : y = y' := by simp [this, g, h4]
      exact ⟨pre, t, post, h1, h2, hy ▸ h3⟩

/-- If the spaces agree on the labels of the observables that they share, every label survives the product. -/
theorem product_agreeing {byAxes : List Space → Except Err Space} {spaces : List LSpace} {r : LSpace}
    (hr : ∀ t ∈ spaces, Reachable t ∧ t.space.coords.obs.isSome)
    (hag : ∀ t ∈ spaces, ∀ u ∈ spaces, ∀ x y z, HasLabel t x y → HasLabel u x z → y = z) (h : combine byAxes spaces = .ok r)
    {t : LSpace} (ht : t ∈ spaces) {x y : String} (hxy : HasLabel t x y) (hx : HasObs r x) : HasLabel r x y := by
  obtain ⟨o, l, ho, hl, hlen, hall⟩ := (product_labels_partial (byAxes := byAxes) hr).2 r h
  obtain ⟨o', ho', hx⟩ := hx
  rw [ho] at ho'
  cases ho'
  have : ∃ z, (x, z) ∈ o.zip l := by
    obtain ⟨i, hi, rfl⟩ := List.getElem_of_mem hx
    exact ⟨l[i], by rw [List.mem_iff_getElem]; exact ⟨i, by simp [hlen, hi], by simp⟩⟩
  obtain ⟨z, hz⟩ := this
  obtain ⟨pre, u, post, hsp, -, hu⟩ := hall x z hz
  have : y = z := hag t ht u (by simp [hsp]) x y z hxy hu
  subst this
  exact ⟨o, l, ho, hl, hz⟩

/-- One observable, limits, and a label (or none). -/
def oneDim (ob : String) (lo hi : Rat) (label : Option (List String)) : Except Err LSpace :=
  LSpace.make (some [ob]) none (.rect [lo] [hi]) label

/-- No limits on spaces with axes only (for the witnesses below). -/
def noAxes : List Space → Except Err Space := fun ss => Space.make none (some ((ss.map (fun s => s.coords.axes.getD [])).flatten)) .none

example : ∃ s t, oneDim "x" 0 1 (some ["mass"]) = .ok s ∧ oneDim "y" 0 1 (some ["angle"]) = .ok t ∧
    (combine noAxes [s, t]).bind (·.labels) = .ok (some ["mass", "angle"]) := ⟨_, _, rfl, rfl, by decide +kernel⟩

/-- Violation of C294: a space without labels (its labels are the names of its observables) takes the label away that another space gives to
an observable that they share, if it comes later; if it comes first, it does not. -/
theorem product_default_wins_violated : ∃ s t, oneDim "x" 0 1 (some ["mass"]) = .ok s ∧ oneDim "x" 0 1 none = .ok t ∧
    (combine noAxes [s, t]).bind (·.labels) = .ok (some ["x"]) ∧
    (combine noAxes [t, s]).bind (·.labels) = .ok (some ["mass"]) :=
  ⟨_, _, rfl, rfl, by decide +kernel, by decide +kernel⟩

theorem mkStored_raw {a : List Int} {l : List String} (h : l.length = a.length) : mkStored ⟨none, some a⟩ (some l) = .ok (.raw l) := by
  simp [mkStored, Coords.nObs, h]

/-- Violation of C294: spaces with axes only and a label do not combine (unless the label happens to have two characters), although the same
spaces without labels do. -/
theorem product_axes_labels_violated {byAxes : List Space → Except Err Space} {a b : Int} {lim lim' : LimIn} {l l' : String} {s t : LSpace}
    (hs : LSpace.make none (some [a]) lim (some [l]) = .ok s) (ht : LSpace.make none (some [b]) lim' (some [l']) = .ok t)
    (hl : l.toList.length ≠ 2) :
    combine byAxes [s, t] = .error .valueError ∧
    ∃ s' t', LSpace.make none (some [a]) lim none = .ok s' ∧ LSpace.make none (some [b]) lim' none = .ok t' ∧ s'.space = s.space ∧
      t'.space = t.space ∧ ∀ r, byAxes [s.space, t.space] = .ok r → ∃ r', combine byAxes [s', t'] = .ok r' ∧ r'.space = r := by
  have parts : ∀ {c : Int} {lm : LimIn} {k : String} {u : LSpace}, LSpace.make none (some [c]) lm (some [k]) = .ok u →
      u.stored = .raw [k] ∧ LSpace.make none (some [c]) lm none = .ok ⟨u.space, .none⟩ ∧ u.space.coords.obs = none := by
    intro c lm k u hu
    unfold LSpace.make at hu ⊢
    simp only [bind_eq_ok, except_pure, Except.ok.injEq] at hu
    obtain ⟨co, hco, st, hst, sp, hsp, rfl⟩ := hu
    have := make_coords hco
    subst this
    rw [mkStored_raw (by simp)] at hst
    cases hst
    refine ⟨rfl, ?_, by rw [(space_make_coords hsp).1]⟩
    simp [hco, hsp, mkStored]
  obtain ⟨s1, s2, s3⟩ := parts hs
  obtain ⟨t1, t2, t3⟩ := parts ht
  have hu : updateRaw [] [l] = .error .valueError := by
    unfold updateRaw
    split
    · rename_i c d hcd
      rw [hcd] at hl
      exact absurd rfl hl
    · rfl
  refine ⟨?_, ⟨s.space, .none⟩, ⟨t.space, .none⟩, s2, t2, rfl, rfl, fun r hr => ?_⟩
  · simp [combine, addStored, s1, hu]
  · have hst : ∃ st, mkStored r.coords none = .ok st := by
      unfold mkStored
      cases r.coords.obs <;> exact ⟨_, rfl⟩
    obtain ⟨st, hst⟩ := hst
    have hno : commonObs [s.space, t.space] = none := by simp [commonObs, s3]
    exact ⟨⟨r, st⟩, by simp [combine, addStored, hno, hr, hst], rfl⟩

example : ∃ s t, LSpace.make none (some [0]) .none (some ["mass"]) = .ok s ∧ LSpace.make none (some [1]) .none (some ["angle"]) = .ok t ∧
    combine noAxes [s, t] = .error .valueError ∧ ∃ r, noAxes [s.space, t.space] = .ok r :=
  ⟨_, _, rfl, rfl, by decide +kernel, _, rfl⟩

/-- The same holds for spaces that had observables: taking them away keeps the labels where nobody can see them. -/
theorem product_dropped_labels_violated : ∃ s t s' t', LSpace.make (some ["x"]) (some [0]) .none (some ["mass"]) = .ok s ∧
    LSpace.make (some ["y"]) (some [1]) .none none = .ok t ∧ s.withObs none true true = .ok s' ∧ t.withObs none true true = .ok t' ∧
    s'.labels = .ok none ∧ t'.labels = .ok none ∧ combine noAxes [s', t'] = .error .valueError :=
  ⟨_, _, _, _, rfl, rfl, rfl, rfl, by decide +kernel, by decide +kernel, by decide +kernel⟩

/-- Violation of C294 (unions): whatever the labels of the spaces are, if they have limits the labels of their union are the names of the
observables. -/
theorem union_labels_violated {spaces : List LSpace} {ls : List Space} {c : Coords}
    (h : addSpaces (spaces.map (.single ·.space)) = .ok (.multi ls c)) : unionLabels spaces = .ok c.obs := by
  simp [unionLabels, h, multiLabels]

example : ∃ s t, oneDim "x" 0 1 (some ["mass"]) = .ok s ∧ oneDim "x" 1 2 (some ["mass"]) = .ok t ∧
    (∃ ls c, addSpaces [.single s.space, .single t.space] = .ok (.multi ls c)) ∧ unionLabels [s, t] = .ok (some ["x"]) :=
  ⟨_, _, rfl, rfl, ⟨_, _, rfl⟩, by decide +kernel⟩

end Zfit.Lab
