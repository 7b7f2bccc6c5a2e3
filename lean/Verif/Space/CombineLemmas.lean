import Verif.Space.CombineSpec
import Verif.Space.Lemmas

/-! Helper lemmas for equality of spaces and `combine_spaces`. -/

namespace Zfit.Sp

open Zfit Zfit.Coord

variable {α β κ : Type}

/-- The constructor accepts limits dictionaries that fit the coordinates (the hypotheses of `make_inv`). -/
theorem make_ok {dO : Option (List (String × Lim))} {dA : Option (List (Int × Lim))}
    {lims' : List (Rat × Rat)} (o' : Option (List String)) (a' : Option (List Int)) (hne : lims' ≠ [])
    (hsome : o' ≠ none ∨ a' ≠ none)
    (ho : ∀ l, o' = some l → l.Nodup ∧ l.length = lims'.length ∧
      ((∃ d, dO = some d ∧ Aligned l lims' (d.filter (fun p => decide (p.1 ∈ l)))) ∨
        (dO = none ∧ ∃ a d, a' = some a ∧ a.Nodup ∧ a.length = lims'.length ∧ dA = some d ∧ Aligned a lims' d)))
    (ha : ∀ l, a' = some l → l.Nodup ∧ l.length = lims'.length ∧
      ((∃ d, dA = some d ∧ Aligned l lims' (d.filter (fun p => decide (p.1 ∈ l)))) ∨
        (dA = none ∧ ∃ o d, o' = some o ∧ o.Nodup ∧ o.length = lims'.length ∧ dO = some d ∧ Aligned o lims' d))) :
    ∃ s', Space.make o' a' (.dict dO dA) = .ok s' ∧ Inv s' lims' ∧ s'.coords = ⟨o', a'⟩ := by
  have hl : ∀ {γ : Type} (l : List γ), l.length = lims'.length → falsy (some l) = false := by
    intro γ l hl
    cases l with
    | nil => exact (hne (List.length_eq_zero_iff.1 hl.symm)).elim
    | cons _ _ => rfl
  have hcm : Coords.make o' a' = .ok ⟨o', a'⟩ := by
    unfold Coords.make
    cases o' with
    | none =>
      cases a' with
      | none => simp at hsome
      | some a => simp [hl a (ha a rfl).2.1]
    | some o =>
      cases a' with
      | none => simp [hl o (ho o rfl).2.1]
      | some a => simp [hl o (ho o rfl).2.1, (ho o rfl).2.1, (ha a rfl).2.1]
  have hex : ∃ s', Space.make o' a' (.dict dO dA) = .ok s' := by
    unfold Space.make
    simp only [hcm, except_bind_ok]
    have hcond : (dO.isNone && dA.isNone) = false := by
      rcases hsome with hs | hs
      · obtain ⟨l, rfl⟩ := Option.ne_none_iff_exists'.1 hs
        obtain ⟨-, -, ⟨d, rfl, -⟩ | ⟨-, a, d, -, -, -, rfl, -⟩⟩ := ho l rfl <;> simp
      · obtain ⟨l, rfl⟩ := Option.ne_none_iff_exists'.1 hs
        obtain ⟨-, -, ⟨d, rfl, -⟩ | ⟨-, a, d, -, -, -, rfl, -⟩⟩ := ha l rfl <;> simp
    have h1 : ∃ no, pickOrDerive o' a' dO dA = .ok no := by
      cases o' with
      | none => exact ⟨none, rfl⟩
      | some l =>
        obtain ⟨hn, hlen, hcase⟩ := ho l rfl
        rcases hcase with ⟨d, rfl, hal⟩ | ⟨rfl, a, d, rfl, hna', hal', rfl, hal⟩
        · exact ⟨_, rfl⟩
        · obtain ⟨d', hd', hal2⟩ := deriveDict_ok (own := l) hal hna' (by omega)
          exact ⟨some d', by simp [pickOrDerive, hd']⟩
    have h2 : ∃ na, pickOrDerive a' o' dA dO = .ok na := by
      cases a' with
      | none => exact ⟨none, rfl⟩
      | some l =>
        obtain ⟨hn, hlen, hcase⟩ := ha l rfl
        rcases hcase with ⟨d, rfl, hal⟩ | ⟨rfl, a, d, rfl, hna', hal', rfl, hal⟩
        · exact ⟨_, rfl⟩
        · obtain ⟨d', hd', hal2⟩ := deriveDict_ok (own := l) hal hna' (by omega)
          exact ⟨some d', by simp [pickOrDerive, hd']⟩
    obtain ⟨no, h1⟩ := h1
    obtain ⟨na, h2⟩ := h2
    exact ⟨⟨⟨o', a'⟩, no, na⟩, by simp [normaliseDict, hcond, h1, h2]⟩
  obtain ⟨s', hs'⟩ := hex
  exact ⟨s', hs', make_inv o' a' hne ho ha hs'⟩

/-- `s` is a space over the observables `o` with the limits `f`. -/
def Named (s : Space) (o : List String) (f : String → Rat × Rat) : Prop :=
  s.coords.obs = some o ∧ Inv s (o.map f)

theorem Named.nodup {s : Space} {o : List String} {f : String → Rat × Rat} (h : Named s o f) : o.Nodup :=
  (h.2.obs o h.1).2.1

theorem Named.ne_nil {s : Space} {o : List String} {f : String → Rat × Rat} (h : Named s o f) : o ≠ [] := by
  rintro rfl
  exact h.2.ne rfl

/-- Every space with observables and limits has this form. -/
theorem Inv.named {s : Space} {lims : List (Rat × Rat)} {o : List String} (h : Inv s lims)
    (ho : s.coords.obs = some o) : Named s o (fun x => (lims[o.idxOf x]?).getD (0, 0)) := by
  obtain ⟨hlen, hno, -⟩ := h.obs o ho
  refine ⟨ho, ?_⟩
  have : o.map (fun x => (lims[o.idxOf x]?).getD (0, 0)) = lims := by
    apply List.ext_getElem?
    intro i
    rw [List.getElem?_map]
    cases hi : o[i]? with
    | none =>
      have : o.length ≤ i := by simpa using hi
      rw [List.getElem?_eq_none (by omega)]; rfl
    | some x =>
      have hx := nodup_getElem?_inj hno (getElem?_idxOf_mem (List.mem_of_getElem? hi)) hi
      have : i < lims.length := by rw [← hlen]; exact (List.getElem?_eq_some_iff.1 hi).1
      simp [hx, List.getElem?_eq_getElem this]
  rw [this]
  exact h

theorem picks_map {idx : List Nat} {l l' : List α} (h : Picks idx l l') (f : α → β) :
    Picks idx (l.map f) (l'.map f) := by
  unfold Picks at *
  have := congrArg (List.map (Option.map f)) h
  simpa [List.map_map, Function.comp_def] using this

theorem idx_picks_axes {o l : List String} {a : List Int} (hlen : a.length = o.length)
    (hl : ∀ x ∈ l, x ∈ o) : ∃ a', (l.map o.idxOf).mapM (pyGet a) = .ok a' ∧ a'.length = l.length := by
  obtain ⟨r, hr⟩ := mapM_pyGet_ok_of_lt (l := a) (idx := l.map o.idxOf) (by
    intro i hi
    obtain ⟨x, hx, rfl⟩ := List.mem_map.1 hi
    rw [hlen]; exact List.idxOf_lt_length_iff.2 (hl x hx))
  exact ⟨r, hr, by simpa using mapM_ok_length hr⟩

/-- The decision of `with_obs` on the coordinates of a well formed space. -/
theorem coords_withObs_ok {c : Coords} {o l : List String} {sup sub : Bool} (ho : c.obs = some o)
    (hax : ∀ a, c.axes = some a → a.length = o.length)
    (hany : ∃ x ∈ l, x ∈ o) (hsup : sup = true ∨ ∀ x ∈ l, x ∈ o) (hsub : sub = true ∨ ∀ x ∈ o, x ∈ l) :
    ∃ c', c.withObs (some l) sup sub = .ok c' := by
  have hmem : ∀ x ∈ l.filter (· ∈ o), x ∈ o := by
    intro x hx; simpa using (List.mem_filter.1 hx).2
  have hidx : c.getReorderIndices (some l) none = .ok ((l.filter (· ∈ o)).map o.idxOf) := by
    unfold Coords.getReorderIndices
    simp [ho, reorderIndices_ok_of_subset hmem]
  have hfne : l.filter (· ∈ o) ≠ [] := by
    obtain ⟨x, hx, hxo⟩ := hany
    intro hcon
    have : x ∈ l.filter (· ∈ o) := List.mem_filter.2 ⟨hx, by simpa using hxo⟩
    rw [hcon] at this
    simp at this
  have hfal : falsy (some (l.filter (· ∈ o))) = false := by
    cases h : l.filter (· ∈ o) with
    | nil => exact (hfne h).elim
    | cons _ _ => rfl
  unfold Coords.withObs
  simp only [ho]
  rw [if_neg (by simpa using hany), if_neg (by
      rintro ⟨h1, h2⟩
      rcases hsup with h | h
      · exact h1 h
      · obtain ⟨x, hx, hx'⟩ := List.any_eq_true.1 h2
        simp only [decide_eq_true_eq] at hx'
        exact hx' (h x hx)), if_neg (by
      rintro ⟨h1, h2⟩
      rcases hsub with h | h
      · exact h1 h
      · obtain ⟨x, hx, hx'⟩ := List.any_eq_true.1 h2
        simp only [decide_eq_true_eq] at hx'
        exact hx' (h x hx))]
  simp only [hidx, except_bind_ok, reorderTuple, gather_idxOf hmem, except_pure]
  cases ha : c.axes with
  | none =>
    exact ⟨⟨some (l.filter (· ∈ o)), none⟩, by simp only [except_bind_ok, Coords.make, hfal, Bool.false_eq_true, if_false]⟩
  | some a =>
    obtain ⟨a', ha', hla⟩ := idx_picks_axes (hax a ha) hmem
    exact ⟨⟨some (l.filter (· ∈ o)), some a'⟩, by
      simp only [ha', except_bind_ok, Coords.make, hfal, hla, ne_eq, not_true_eq_false, Bool.false_and,
        Bool.false_eq_true, if_false]⟩

theorem Named.axes_length {s : Space} {o : List String} {f : String → Rat × Rat} (h : Named s o f) :
    ∀ a, s.coords.axes = some a → a.length = o.length := by
  intro a ha
  have := (h.2.ax a ha).1
  simpa using this

theorem Named.coordsPicked {s : Space} {o : List String} {f : String → Rat × Rat} (h : Named s o f) {l : List String}
    (hl : l.Nodup) {c' : Coords} {sup sub : Bool} (hc' : s.coords.withObs (some l) sup sub = .ok c') :
    ∃ idx, c'.obs = some (l.filter (· ∈ o)) ∧ idx.Nodup ∧ l.filter (· ∈ o) ≠ [] ∧
      Picks idx o (l.filter (· ∈ o)) ∧ (s.coords.axes = none → c'.axes = none) ∧
      ∀ a, s.coords.axes = some a → ∃ a', c'.axes = some a' ∧ Picks idx a a' := by
  obtain ⟨idx, h1, h2, h3, h4, h5, h6⟩ := coords_withObs_picks h.1 hc'
  refine ⟨idx, h1, ?_, ?_, h4, h5, h6⟩
  · rw [h2]
    refine nodup_map_idxOf (hl.filter _) ?_
    intro x hx; simpa using (List.mem_filter.1 hx).2
  · intro hcon
    rw [h2, hcon] at h3
    exact h3 rfl

/-- `with_obs` on a space with limits: it succeeds exactly as the coordinates allow, and keeps the limits by name. -/
theorem Named.withObs {s : Space} {o : List String} {f : String → Rat × Rat} (h : Named s o f) {l : List String}
    (hl : l.Nodup) {sup sub : Bool}
    (hany : ∃ x ∈ l, x ∈ o) (hsup : sup = true ∨ ∀ x ∈ l, x ∈ o) (hsub : sub = true ∨ ∀ x ∈ o, x ∈ l) :
    ∃ s', s.withObs (some l) sup sub = .ok s' ∧ Named s' (l.filter (· ∈ o)) f := by
  obtain ⟨c', hc'⟩ := coords_withObs_ok h.1 h.axes_length hany hsup hsub
  obtain ⟨idx, h1, hnd, hne, h4, h5, h6⟩ := h.coordsPicked hl hc'
  obtain ⟨hlen, hno, d, hd, hal⟩ := h.2.obs o h.1
  have hpl := picks_map h4 f
  obtain ⟨s', hs', hinv, hco⟩ := make_ok (dO := s.obsLim) (dA := s.axLim) (lims' := (l.filter (· ∈ o)).map f)
    c'.obs c'.axes (by simpa using hne) (Or.inl (by rw [h1]; simp)) (by
      intro l2 hl2
      rw [h1] at hl2
      cases hl2
      exact ⟨hl.filter _, by simp, Or.inl ⟨d, hd, hal.filter hno h4 hpl⟩⟩) (by
      intro l2 hl2
      cases hsa : s.coords.axes with
      | none => rw [h5 hsa] at hl2; cases hl2
      | some a =>
        obtain ⟨a', ha', hp⟩ := h6 a hsa
        rw [hl2] at ha'
        cases ha'
        obtain ⟨hla, hna, da, hda, hala⟩ := h.2.ax a hsa
        exact ⟨hp.nodup hna hnd, by rw [hp.length, ← h4.length]; simp, Or.inl ⟨da, hda, hala.filter hna hp hpl⟩⟩)
  refine ⟨s', ?_, by rw [hco]; exact h1, hinv⟩
  unfold Space.withObs
  simp only [hc', except_bind_ok]
  exact hs'

/-- `get_subspace` by observables: the limits of the observables asked for. -/
theorem Named.subspaceObs {s : Space} {o : List String} {f : String → Rat × Rat} (h : Named s o f) {l : List String}
    (hl : l.Nodup) (hany : ∃ x ∈ l, x ∈ o) :
    ∃ s', s.subspaceObs l = .ok s' ∧ Named s' (l.filter (· ∈ o)) f := by
  obtain ⟨c', hc'⟩ := coords_withObs_ok (sup := true) (sub := true) h.1 h.axes_length hany (Or.inl rfl) (Or.inl rfl)
  obtain ⟨idx, h1, hnd, hne, h4, h5, h6⟩ := h.coordsPicked hl hc'
  obtain ⟨hlen, hno, d, hd, hal⟩ := h.2.obs o h.1
  have hpl := picks_map h4 f
  have hA := hal.filter hno h4 hpl
  obtain ⟨s', hs', hinv, hco⟩ := make_ok
    (dO := some (d.filter (fun p => decide (p.1 ∈ l.filter (· ∈ o))))) (dA := none)
    (lims' := (l.filter (· ∈ o)).map f)
    c'.obs c'.axes (by simpa using hne) (Or.inl (by rw [h1]; simp)) (by
      intro l2 hl2
      rw [h1] at hl2
      cases hl2
      refine ⟨hl.filter _, by simp, Or.inl ⟨_, rfl, ?_⟩⟩
      rw [filter_filter_self]
      exact hA) (by
      intro l2 hl2
      cases hsa : s.coords.axes with
      | none => rw [h5 hsa] at hl2; cases hl2
      | some a =>
        obtain ⟨a', ha', hp⟩ := h6 a hsa
        rw [hl2] at ha'
        cases ha'
        exact ⟨hp.nodup (h.2.ax a hsa).2.1 hnd, by rw [hp.length, ← h4.length]; simp,
          Or.inr ⟨rfl, _, _, h1, hl.filter _, by simp, rfl, hA⟩⟩)
  refine ⟨s', ?_, by rw [hco]; exact h1, hinv⟩
  unfold Space.subspaceObs
  simp only [hc', except_bind_ok, extractLimits, hd, Option.getD_some]
  rw [hal.filter_sub]
  exact hs'

theorem Named.dropAxes {s : Space} {o : List String} {f : String → Rat × Rat} (h : Named s o f) :
    ∃ s', s.dropAxes = .ok s' ∧ Named s' o f ∧ s'.coords.axes = none := by
  unfold Space.dropAxes
  cases ha : s.coords.axes with
  | none => exact ⟨s, by simp, h, ha⟩
  | some a =>
    simp only [Option.isSome_some, if_true, Space.withAxes, ha, h.1]
    obtain ⟨hlen, hno, d, hd, hal⟩ := h.2.obs o h.1
    obtain ⟨s', hs', hinv, hco⟩ := make_ok (dO := s.obsLim) (dA := s.axLim) (lims' := o.map f) (some o) none h.2.ne
      (by simp) (by
        intro l hl
        cases hl
        refine ⟨hno, hlen, Or.inl ⟨d, hd, ?_⟩⟩
        rw [hal.filter_self]; exact hal) (by simp)
    exact ⟨s', hs', ⟨by rw [hco], hinv⟩, by rw [hco]⟩

theorem Named.setAxes {s : Space} {o : List String} {f : String → Rat × Rat} (h : Named s o f)
    (hax : s.coords.axes = none) {a : List Int} (ha : a.Nodup) (hlen : a.length = o.length) (sup sub : Bool) :
    ∃ s', s.withAxes (some a) sup sub = .ok s' ∧ Named s' o f := by
  obtain ⟨hl, hno, d, hd, hal⟩ := h.2.obs o h.1
  obtain ⟨s', hs', hinv, hco⟩ := make_ok (dO := s.obsLim) (dA := s.axLim) (lims' := o.map f) (some o) (some a) h.2.ne
    (by simp) (by
      intro l hl
      cases hl
      refine ⟨hno, by simp, Or.inl ⟨d, hd, ?_⟩⟩
      rw [hal.filter_self]; exact hal) (by
      intro l hl
      cases hl
      exact ⟨ha, by simpa using hlen, Or.inr ⟨h.2.ax_none hax, o, d, rfl, hno, by simp, hd, hal⟩⟩)
  refine ⟨s', ?_, by rw [hco], hinv⟩
  unfold Space.withAxes
  simp only [hax, h.1, hlen, ne_eq, not_true_eq_false, if_false]
  exact hs'

theorem Named.rectLimits {s : Space} {o : List String} {f : String → Rat × Rat} (h : Named s o f) :
    s.rectLimits = .ok (o.map (fun x => (f x).1), o.map (fun x => (f x).2)) := by
  rw [h.2.rectLimits]
  simp [List.map_map, Function.comp_def]

theorem limitsClose_iff {o : List String} {f g : String → Rat × Rat} :
    limitsClose (o.map (fun x => (f x).1), o.map (fun x => (f x).2))
      (o.map (fun x => (g x).1), o.map (fun x => (g x).2)) = true ↔ ∀ x ∈ o, closeLim (f x) (g x) := by
  have : ∀ (p q : String → Rat), (List.zipWith (fun a b => decide (|a - b| < 1 / 100000000)) (o.map p) (o.map q)).all id
      = true ↔ ∀ x ∈ o, |p x - q x| < 1 / 100000000 := by
    intro p q
    induction o with
    | nil => simp
    | cons x o ih => simp only [List.map_cons, List.zipWith_cons_cons, List.all_cons, Bool.and_eq_true, ih,
        List.forall_mem_cons, id, decide_eq_true_eq]
  unfold limitsClose
  rw [Bool.and_eq_true, this, this]
  unfold closeLim
  constructor
  · rintro ⟨h1, h2⟩ x hx; exact ⟨h1 x hx, h2 x hx⟩
  · intro h; exact ⟨fun x hx => (h x hx).1, fun x hx => (h x hx).2⟩

theorem withObs_mismatch {c : Coords} {o l : List String} (ho : c.obs = some o)
    (h : ¬ ((∀ x ∈ l, x ∈ o) ∧ ∀ x ∈ o, x ∈ l)) : c.withObs (some l) false false = .error .obsIncompatible := by
  unfold Coords.withObs
  simp only [ho]
  split
  · rfl
  split
  · rfl
  split
  · rfl
  · rename_i h1 h2 h3
    exfalso
    apply h
    simp only [List.any_eq_true, decide_eq_true_eq, not_exists, not_and,
      Decidable.not_not, Bool.false_eq_true, not_false_eq_true, true_imp_iff] at h2 h3
    exact ⟨h2, h3⟩

theorem filter_self_of_subset {l o : List String} (h : ∀ x ∈ l, x ∈ o) : l.filter (· ∈ o) = l := by
  rw [List.filter_eq_self]; intro x hx; simpa using h x hx

/-- `with_coords` between spaces with the same observables. -/
theorem Named.withCoords {s t : Space} {o p : List String} {f g : String → Rat × Rat} (hs : Named s o f)
    (ht : Named t p g) (h1 : ∀ x ∈ p, x ∈ o) (h2 : ∀ x ∈ o, x ∈ p) :
    ∃ s', s.withCoords t.coords false false = .ok s' ∧ Named s' p f := by
  obtain ⟨x0, hx0⟩ := List.exists_mem_of_ne_nil _ ht.ne_nil
  obtain ⟨s1, hs1, hn1⟩ := hs.withObs ht.nodup (sup := false) (sub := false) ⟨x0, hx0, h1 x0 hx0⟩ (Or.inr h1) (Or.inr h2)
  rw [filter_self_of_subset h1] at hn1
  unfold Space.withCoords
  simp only [hs.1, ht.1, hs1, except_bind_ok]
  cases ha : t.coords.axes with
  | none => exact ⟨s1, rfl, hn1⟩
  | some a =>
    obtain ⟨s2, hs2, hn2, hax2⟩ := hn1.dropAxes
    obtain ⟨c', hc'⟩ := coords_withObs_ok (c := t.coords) (l := p) (sup := false) (sub := false) ht.1 ht.axes_length
      ⟨x0, hx0, hx0⟩ (Or.inr fun _ h => h) (Or.inr fun _ h => h)
    obtain ⟨idx, e1, e2, e3, e4, e5, e6⟩ := ht.coordsPicked ht.nodup hc'
    obtain ⟨a', ha', hp⟩ := e6 a ha
    obtain ⟨s3, hs3, hn3⟩ := hn2.setAxes hax2 (a := a') (hp.nodup (ht.2.ax a ha).2.1 e2) (by
      rw [hp.length, ← e4.length, filter_self_of_subset fun _ h => h]) true true
    refine ⟨s3, ?_, hn3⟩
    simp only [hs2, hn2.1, except_bind_ok, hc', ha', hs3]

/-- Equality of two spaces with observables and limits. -/
theorem Named.eq {s t : Space} {o p : List String} {f g : String → Rat × Rat} (hs : Named s o f) (ht : Named t p g) :
    ∃ b, s.eq t = .ok b ∧ (b = true ↔ (∀ x, x ∈ o ↔ x ∈ p) ∧ ∀ x ∈ o, closeLim (f x) (g x)) := by
  unfold Space.eq
  rw [hs.rectLimits, ht.rectLimits]
  simp only
  unfold Space.eqStatic
  by_cases h : (∀ x ∈ o, x ∈ p) ∧ ∀ x ∈ p, x ∈ o
  · obtain ⟨t', ht', hn⟩ := ht.withCoords hs h.1 h.2
    rw [ht']
    simp only
    rw [hs.rectLimits, hn.rectLimits]
    refine ⟨_, rfl, ?_⟩
    rw [limitsClose_iff]
    exact ⟨fun hc => ⟨fun x => ⟨h.1 x, h.2 x⟩, hc⟩, fun hc => hc.2⟩
  · have : t.withCoords s.coords false false = .error .obsIncompatible := by
      unfold Space.withCoords
      simp only [hs.1, ht.1, Space.withObs, withObs_mismatch ht.1 h, except_bind_error]
    rw [this]
    refine ⟨false, rfl, ?_⟩
    simp only [Bool.false_eq_true, false_iff]
    rintro ⟨h1, -⟩
    exact h ⟨fun x hx => (h1 x).1 hx, fun x hx => (h1 x).2 hx⟩

/-! ### The loop of `combine_spaces` -/

theorem limOf_named {s : Space} {o : List String} {f : String → Rat × Rat} (h : Named s o f) {x : String}
    (hx : x ∈ o) : limOf s x = f x := by
  unfold limOf
  rw [h.1, h.rectLimits]
  simp only
  have hz : (o.map (fun x => (f x).1)).zip (o.map (fun x => (f x).2)) = o.map f := by
    rw [List.zip_map']
  rw [hz, dictGet_zip (by simp) hx, List.getElem?_map, getElem?_idxOf_mem hx]
  rfl

theorem Named.congr {s : Space} {o : List String} {f g : String → Rat × Rat} (h : Named s o f)
    (hfg : ∀ x ∈ o, f x = g x) : Named s o g := by
  have : o.map f = o.map g := List.map_congr_left hfg
  exact ⟨h.1, this ▸ h.2⟩

/-- A space with observables and limits. -/
def Good (s : Space) : Prop := Named s (obsOf s) (limOf s)

theorem Named.obsOf {s : Space} {o : List String} {f : String → Rat × Rat} (h : Named s o f) : obsOf s = o := by
  simp [Sp.obsOf, h.1]

theorem Named.good {s : Space} {o : List String} {f : String → Rat × Rat} (h : Named s o f) : Good s := by
  unfold Good
  rw [h.obsOf]
  exact h.congr fun x hx => (limOf_named h hx).symm

theorem Named.dict {s : Space} {o : List String} {f : String → Rat × Rat} (h : Named s o f) :
    (∀ p ∈ s.obsLim.getD [], p.1 ∈ o ∧ p.2 = .rect (f p.1).1 (f p.1).2) ∧
      ∀ x ∈ o, x ∈ (s.obsLim.getD []).map (·.1) := by
  obtain ⟨-, -, d, hd, hal⟩ := h.2.obs o h.1
  rw [hd]
  refine ⟨fun p hp => ?_, hal.2⟩
  obtain ⟨i, l, h1, h2, h3⟩ := hal.1 p hp
  refine ⟨List.mem_of_getElem? h1, ?_⟩
  rw [List.getElem?_map, h1] at h2
  simp only [Option.map_some, Option.some.injEq] at h2
  rw [h3, h2]

theorem mem_dictUpdate [DecidableEq κ] {d e : List (κ × β)} {p : κ × β} (h : p ∈ dictUpdate d e) : p ∈ d ∨ p ∈ e := by
  unfold dictUpdate at h
  induction e generalizing d with
  | nil => exact Or.inl h
  | cons q e ih =>
    rcases ih h with h | h
    · rcases mem_dictSet h with h | rfl
      · exact Or.inl h
      · exact Or.inr List.mem_cons_self
    · exact Or.inr (List.mem_cons_of_mem _ h)

theorem keys_dictUpdate [DecidableEq κ] {d e : List (κ × β)} {x : κ} :
    x ∈ (dictUpdate d e).map (·.1) ↔ x ∈ d.map (·.1) ∨ x ∈ e.map (·.1) := by
  unfold dictUpdate
  induction e generalizing d with
  | nil => simp
  | cons q e ih =>
    rw [List.foldl_cons, ih, keys_dictSet, List.map_cons, List.mem_cons, or_assoc]

theorem dictSet_nodup [DecidableEq κ] {d : List (κ × β)} (hd : (d.map (·.1)).Nodup) (k : κ) (v : β) :
    ((dictSet d k v).map (·.1)).Nodup := by
  induction d with
  | nil => simp [dictSet]
  | cons q d ih =>
    obtain ⟨k', v'⟩ := q
    simp only [List.map_cons, List.nodup_cons] at hd
    unfold dictSet
    split
    · simpa using hd
    · rename_i hne
      simp only [List.map_cons, List.nodup_cons]
      refine ⟨?_, ih hd.2⟩
      rw [keys_dictSet]
      rintro (h | h)
      · exact hd.1 h
      · exact hne h

theorem dictUpdate_nodup [DecidableEq κ] {d e : List (κ × β)} (hd : (d.map (·.1)).Nodup) :
    ((dictUpdate d e).map (·.1)).Nodup := by
  unfold dictUpdate
  induction e generalizing d with
  | nil => exact hd
  | cons q e ih => exact ih (dictSet_nodup hd _ _)

theorem removeAll_ok {set l r : List String} (h : removeAll set l = .ok r) : r = set.filter (· ∉ l) := by
  induction l generalizing set with
  | nil =>
    cases h
    symm
    rw [List.filter_eq_self]
    simp
  | cons c cs ih =>
    unfold removeAll at h
    split at h
    · rw [ih h, List.filter_filter]
      apply List.filter_congr
      intro x _
      by_cases hx : x = c <;> by_cases hc : x ∈ cs <;> simp [hx, hc]
    · cases h

theorem removeAll_total {set l : List String} (hl : l.Nodup) (hs : ∀ x ∈ l, x ∈ set) :
    removeAll set l = .ok (set.filter (· ∉ l)) := by
  have : ∃ r, removeAll set l = .ok r := by
    induction l generalizing set with
    | nil => exact ⟨set, rfl⟩
    | cons c cs ih =>
      unfold removeAll
      rw [if_pos (hs c List.mem_cons_self)]
      apply ih (List.nodup_cons.1 hl).2
      intro x hx
      refine List.mem_filter.2 ⟨hs x (List.mem_cons_of_mem _ hx), ?_⟩
      simp only [ne_eq, decide_not, Bool.not_eq_true', decide_eq_false_iff_not]
      rintro rfl
      exact (List.nodup_cons.1 hl).1 hx
  obtain ⟨r, hr⟩ := this
  rw [hr, removeAll_ok hr]

theorem removeAll_error {set l : List String} {e : Err} (h : removeAll set l = .error e) : e = .keyError := by
  induction l generalizing set with
  | nil => cases h
  | cons c cs ih =>
    unfold removeAll at h
    split at h
    · exact ih h
    · cases h; rfl

theorem anyNotEqual_named {first : Space} {o : List String} (h1 : Named first o (limOf first)) {rest : List Space}
    (hr : ∀ s ∈ rest, Named s o (limOf s)) :
    ∃ b, anyNotEqual first rest = .ok b ∧
      (b = false ↔ ∀ s ∈ rest, ∀ x ∈ o, closeLim (limOf first x) (limOf s x)) := by
  induction rest with
  | nil => exact ⟨false, rfl, by simp⟩
  | cons s ss ih =>
    obtain ⟨b, hb, hbi⟩ := h1.eq (hr s List.mem_cons_self)
    obtain ⟨b', hb', hbi'⟩ := ih (fun t ht => hr t (List.mem_cons_of_mem _ ht))
    unfold anyNotEqual
    simp only [hb, except_bind_ok]
    cases b with
    | true =>
      refine ⟨b', by simpa using hb', ?_⟩
      rw [hbi', List.forall_mem_cons]
      have := (hbi.1 rfl).2
      exact ⟨fun h => ⟨this, h⟩, fun h => h.2⟩
    | false =>
      refine ⟨true, by simp, ?_⟩
      simp only [Bool.true_eq_false, false_iff, List.forall_mem_cons, not_and]
      intro hcl
      have : ¬ (false = true) := by simp
      exact (this (hbi.2 ⟨fun _ => Iff.rfl, hcl⟩)).elim

theorem mem_intersectObs {spaces : List Space} (hne : spaces ≠ []) {y : String} :
    y ∈ intersectObs spaces ↔ ∀ s ∈ spaces, y ∈ obsOf s := by
  cases spaces with
  | nil => exact (hne rfl).elim
  | cons s ss =>
    simp [intersectObs]

/-- What one successful subspace computation for shared coordinates gives. -/
theorem subs_named {withC : List Space} (hN : ∀ s ∈ withC, Good s) {c : String}
    (hc : ∀ s ∈ withC, c ∈ obsOf s) (hne : withC ≠ []) :
    ∃ subs, withC.mapM (fun s => s.subspaceObs (intersectObs withC)) = .ok subs ∧
      List.Forall₂ (fun s t => Named t (intersectObs withC) (limOf s)) withC subs := by
  have hnd : (intersectObs withC).Nodup := by
    cases withC with
    | nil => exact (hne rfl).elim
    | cons s ss => exact (hN s List.mem_cons_self).nodup.filter _
  have hcI : c ∈ intersectObs withC := (mem_intersectObs hne).2 hc
  have hsub : ∀ s ∈ withC, ∀ x ∈ intersectObs withC, x ∈ obsOf s := by
    intro s hs x hx
    exact (mem_intersectObs hne).1 hx s hs
  generalize hI : intersectObs withC = I at *
  clear hI hne
  induction withC with
  | nil => exact ⟨[], rfl, .nil⟩
  | cons s ss ih =>
    obtain ⟨t, ht, hnt⟩ := (hN s List.mem_cons_self).subspaceObs hnd ⟨c, hcI, hsub s List.mem_cons_self c hcI⟩
    rw [filter_self_of_subset (hsub s List.mem_cons_self)] at hnt
    obtain ⟨ts, hts, hf⟩ := ih (fun x hx => hN x (List.mem_cons_of_mem _ hx))
      (fun x hx => hc x (List.mem_cons_of_mem _ hx)) (fun x hx => hsub x (List.mem_cons_of_mem _ hx))
    exact ⟨t :: ts, by simp [ht, hts], .cons hnt hf⟩

/-- The loop invariant that holds in any case: the collected limits are limits of the given spaces, and every
coordinate is still to be processed or has its limits. -/
structure CombInv (spaces : List Space) (common : List String) (st : CombineState) : Prop where
  lim : ∀ p ∈ st.limits, ∃ s ∈ spaces, p.1 ∈ obsOf s ∧ p.2 = .rect (limOf s p.1).1 (limOf s p.1).2
  cover : ∀ c ∈ common, c ∈ st.unique ∨ c ∈ st.nonUnique ∨ c ∈ st.limits.map (·.1)
  nodup : st.unique.Nodup
  keys : (st.limits.map (·.1)).Nodup

theorem mem_filter_not {l m : List String} {c : String} (hc : c ∈ l) : c ∈ l.filter (· ∉ m) ∨ c ∈ m := by
  by_cases h : c ∈ m
  · exact Or.inr h
  · exact Or.inl (List.mem_filter.2 ⟨hc, by simpa using h⟩)

theorem forall₂_mem_right {γ δ : Type} {R : γ → δ → Prop} {l : List γ} {m : List δ} (h : List.Forall₂ R l m) {y : δ}
    (hy : y ∈ m) : ∃ x ∈ l, R x y := by
  induction h with
  | nil => simp at hy
  | cons hxy _ ih =>
    rcases List.mem_cons.1 hy with rfl | hy
    · exact ⟨_, List.mem_cons_self, hxy⟩
    · obtain ⟨x, hx, hr⟩ := ih hy
      exact ⟨x, List.mem_cons_of_mem _ hx, hr⟩

theorem forall₂_mem_left {γ δ : Type} {R : γ → δ → Prop} {l : List γ} {m : List δ} (h : List.Forall₂ R l m) {x : γ}
    (hx : x ∈ l) : ∃ y ∈ m, R x y := by
  induction h with
  | nil => simp at hx
  | cons hxy _ ih =>
    rcases List.mem_cons.1 hx with rfl | hx
    · exact ⟨_, List.mem_cons_self, hxy⟩
    · obtain ⟨y, hy, hr⟩ := ih hx
      exact ⟨y, List.mem_cons_of_mem _ hy, hr⟩

/-- The unique branch always succeeds. -/
theorem combineUnique_ok {spaces : List Space} {common : List String} {st : CombineState} {c : String}
    (hN : ∀ s ∈ spaces, Good s) (hi : CombInv spaces common st) (hc : c ∈ st.unique)
    (hcs : ∃ s ∈ spaces, c ∈ obsOf s) :
    ∃ st', combineUnique spaces st c = .ok st' ∧ CombInv spaces common st' ∧ c ∈ st'.limits.map (·.1) ∧
      (∀ x ∈ st.limits.map (·.1), x ∈ st'.limits.map (·.1)) ∧ st'.nonUnique = st.nonUnique ∧
      ∀ x ∈ st'.unique, x ∈ st.unique := by
  unfold combineUnique
  cases hf : spaces.find? (fun s => decide (c ∈ obsOf s)) with
  | none =>
    rw [List.find?_eq_none] at hf
    obtain ⟨s, hs, hcs⟩ := hcs
    exact (hf s hs (by simpa using hcs)).elim
  | some s =>
    have hs := List.mem_of_find?_eq_some hf
    have hcs : c ∈ obsOf s := by simpa using List.find?_some hf
    obtain ⟨t, ht, hnt⟩ := (hN s hs).subspaceObs hi.nodup ⟨c, hc, hcs⟩
    have hrm := removeAll_total (set := st.unique) hnt.nodup (fun x hx => (List.mem_filter.1 hx).1)
    simp only [ht, except_bind_ok, hnt.obsOf, hrm, except_pure]
    obtain ⟨hd1, hd2⟩ := hnt.dict
    refine ⟨_, rfl, ⟨?_, ?_, hi.nodup.filter _, dictUpdate_nodup hi.keys⟩, ?_, ?_, rfl, fun x hx => (List.mem_filter.1 hx).1⟩
    · intro p hp
      rcases mem_dictUpdate hp with hp | hp
      · exact hi.lim p hp
      · obtain ⟨h1, h2⟩ := hd1 p hp
        exact ⟨s, hs, by simpa using (List.mem_filter.1 h1).2, h2⟩
    · intro x hx
      rcases hi.cover x hx with h | h | h
      · rcases mem_filter_not (m := st.unique.filter (· ∈ obsOf s)) h with h | h
        · exact Or.inl h
        · exact Or.inr (Or.inr (keys_dictUpdate.2 (Or.inr (hd2 x h))))
      · exact Or.inr (Or.inl h)
      · exact Or.inr (Or.inr (keys_dictUpdate.2 (Or.inl h)))
    · exact keys_dictUpdate.2 (Or.inr (hd2 c (List.mem_filter.2 ⟨hc, by simpa using hcs⟩)))
    · intro x hx
      exact keys_dictUpdate.2 (Or.inl hx)

/-- The branch for shared coordinates: the limits differ, or the coordinates of the group were partly processed before,
or it succeeds. -/
theorem combineShared_cases {spaces : List Space} {common : List String} {st : CombineState} {c : String}
    (hN : ∀ s ∈ spaces, Good s) (hi : CombInv spaces common st)
    (hcs : ∃ s ∈ spaces, c ∈ obsOf s) :
    (∃ s0 rest, spaces.filter (fun s => decide (c ∈ obsOf s)) = s0 :: rest ∧
      ((combineShared spaces st c = .error .limitsIncompatible ∧
        ∃ t ∈ rest, ∃ x, (∀ s ∈ s0 :: rest, x ∈ obsOf s) ∧ ¬ closeLim (limOf s0 x) (limOf t x)) ∨
      ((∀ t ∈ rest, ∀ x, (∀ s ∈ s0 :: rest, x ∈ obsOf s) → closeLim (limOf s0 x) (limOf t x)) ∧
        ((combineShared spaces st c = .error .keyError ∧
            ∃ x, (∀ s ∈ s0 :: rest, x ∈ obsOf s) ∧ x ∉ st.nonUnique) ∨
        ∃ st', combineShared spaces st c = .ok st' ∧ CombInv spaces common st' ∧ c ∈ st'.limits.map (·.1) ∧
          (∀ x ∈ st.limits.map (·.1), x ∈ st'.limits.map (·.1)) ∧
          (∀ x, x ∈ st'.nonUnique ↔ x ∈ st.nonUnique ∧ ¬ ∀ s ∈ s0 :: rest, x ∈ obsOf s) ∧ st'.unique = st.unique)))) := by
  have hwN : ∀ s ∈ spaces.filter (fun s => decide (c ∈ obsOf s)), Good s := fun s hs => hN s (List.mem_filter.1 hs).1
  have hwc : ∀ s ∈ spaces.filter (fun s => decide (c ∈ obsOf s)), c ∈ obsOf s := fun s hs => by
    simpa using (List.mem_filter.1 hs).2
  have hwm : ∀ s ∈ spaces.filter (fun s => decide (c ∈ obsOf s)), s ∈ spaces := fun s hs => (List.mem_filter.1 hs).1
  have hwne : spaces.filter (fun s => decide (c ∈ obsOf s)) ≠ [] := by
    obtain ⟨s, hs, hcs⟩ := hcs
    intro hcon
    have : s ∈ spaces.filter (fun s => decide (c ∈ obsOf s)) := List.mem_filter.2 ⟨hs, by simpa using hcs⟩
    rw [hcon] at this
    simp at this
  unfold combineShared
  generalize hW : spaces.filter (fun s => decide (c ∈ obsOf s)) = W at *
  obtain ⟨subs, hsubs, hall⟩ := subs_named hwN hwc hwne
  simp only [hsubs, except_bind_ok]
  cases hall with
  | nil => exact (hwne rfl).elim
  | @cons s0 t0 rest trest h0 hrest =>
    refine ⟨s0, rest, rfl, ?_⟩
    have hG : ∀ x, x ∈ intersectObs (s0 :: rest) ↔ ∀ s ∈ s0 :: rest, x ∈ obsOf s := fun x => mem_intersectObs hwne
    generalize hI : intersectObs (s0 :: rest) = I at *
    have h0' : Named t0 I (limOf t0) := h0.congr fun x hx => (limOf_named h0 hx).symm
    obtain ⟨b, hb, hbi⟩ := anyNotEqual_named h0' (rest := trest) (by
      intro t ht
      obtain ⟨s, hs, hR⟩ := forall₂_mem_right hrest ht
      exact hR.congr fun x hx => (limOf_named hR hx).symm)
    simp only [hb, except_bind_ok]
    cases b with
    | true =>
      left
      refine ⟨rfl, ?_⟩
      have hn : ¬ ∀ s ∈ trest, ∀ x ∈ I, closeLim (limOf t0 x) (limOf s x) := by
        intro hcon; have := hbi.2 hcon; simp at this
      push Not at hn
      obtain ⟨t, ht, x, hx, hcl⟩ := hn
      obtain ⟨s, hs, hR⟩ := forall₂_mem_right hrest ht
      refine ⟨s, hs, x, (hG x).1 hx, ?_⟩
      rw [limOf_named h0 hx, limOf_named hR hx] at hcl
      exact hcl
    | false =>
      right
      refine ⟨?_, ?_⟩
      · intro s hs x hx
        obtain ⟨t, ht, hR⟩ := forall₂_mem_left hrest hs
        have hx' := (hG x).2 hx
        have := hbi.1 rfl t ht x hx'
        rw [limOf_named h0 hx', limOf_named hR hx'] at this
        exact this
      · simp only [Bool.false_eq_true, if_false, h0.obsOf]
        cases hr : removeAll st.nonUnique I with
        | error e =>
          left
          have := removeAll_error hr
          subst this
          refine ⟨rfl, ?_⟩
          by_contra hcon
          push Not at hcon
          rw [removeAll_total h0.nodup (fun x hx => hcon x ((hG x).1 hx))] at hr
          cases hr
        | ok r =>
          right
          have hrr := removeAll_ok hr
          subst hrr
          obtain ⟨hd1, hd2⟩ := h0.dict
          refine ⟨_, rfl, ⟨?_, ?_, hi.nodup, dictUpdate_nodup hi.keys⟩, ?_, ?_, ?_, rfl⟩
          · intro p hp
            rcases mem_dictUpdate hp with hp | hp
            · exact hi.lim p hp
            · obtain ⟨h1, h2⟩ := hd1 p hp
              exact ⟨s0, hwm s0 List.mem_cons_self, (hG p.1).1 h1 s0 List.mem_cons_self, h2⟩
          · intro x hx
            rcases hi.cover x hx with h | h | h
            · exact Or.inl h
            · rcases mem_filter_not (m := I) h with h | h
              · exact Or.inr (Or.inl h)
              · exact Or.inr (Or.inr (keys_dictUpdate.2 (Or.inr (hd2 x h))))
            · exact Or.inr (Or.inr (keys_dictUpdate.2 (Or.inl h)))
          · exact keys_dictUpdate.2 (Or.inr (hd2 c ((hG c).2 hwc)))
          · intro x hx
            exact keys_dictUpdate.2 (Or.inl hx)
          · intro x
            simp only [List.mem_filter, decide_eq_true_eq, hG]

theorem combineStep_ok {spaces : List Space} {common : List String} {st st' : CombineState} {c : String}
    (hN : ∀ s ∈ spaces, Good s) (hi : CombInv spaces common st) (hcc : c ∈ common)
    (hcs : ∃ s ∈ spaces, c ∈ obsOf s) (h : combineStep spaces st c = .ok st') :
    CombInv spaces common st' ∧ c ∈ st'.limits.map (·.1) ∧
      ∀ x ∈ st.limits.map (·.1), x ∈ st'.limits.map (·.1) := by
  unfold combineStep at h
  split at h
  · rename_i hu
    obtain ⟨st1, h1, h2, h3, h4, -⟩ := combineUnique_ok hN hi hu hcs
    rw [h] at h1
    cases h1
    exact ⟨h2, h3, h4⟩
  · rename_i hu
    split at h
    · obtain ⟨s0, rest, -, hcase⟩ := combineShared_cases hN hi hcs
      rw [h] at hcase
      rcases hcase with ⟨h1, -⟩ | ⟨-, ⟨h1, -⟩ | ⟨st1, h1, h2, h3, h4, -⟩⟩
      · cases h1
      · cases h1
      · cases h1
        exact ⟨h2, h3, h4⟩
    · rename_i hnu
      cases h
      refine ⟨hi, ?_, fun _ h => h⟩
      rcases hi.cover c hcc with h | h | h
      · exact (hu h).elim
      · exact (hnu h).elim
      · exact h

theorem combineLoop_ok {spaces : List Space} {common cs : List String} {st st' : CombineState}
    (hN : ∀ s ∈ spaces, Good s) (hi : CombInv spaces common st)
    (hcs : ∀ c ∈ cs, c ∈ common ∧ ∃ s ∈ spaces, c ∈ obsOf s) (h : cs.foldlM (combineStep spaces) st = .ok st') :
    CombInv spaces common st' ∧ (∀ c ∈ cs, c ∈ st'.limits.map (·.1)) ∧
      ∀ x ∈ st.limits.map (·.1), x ∈ st'.limits.map (·.1) := by
  induction cs generalizing st with
  | nil => cases h; exact ⟨hi, by simp, fun _ h => h⟩
  | cons c cs ih =>
    rw [List.foldlM_cons, bind_eq_ok] at h
    obtain ⟨st1, h1, h2⟩ := h
    obtain ⟨a1, a2, a3⟩ := combineStep_ok hN hi (hcs c List.mem_cons_self).1 (hcs c List.mem_cons_self).2 h1
    obtain ⟨b1, b2, b3⟩ := ih a1 (fun x hx => hcs x (List.mem_cons_of_mem _ hx)) h2
    refine ⟨b1, ?_, fun x hx => b3 x (a3 x hx)⟩
    intro x hx
    rcases List.mem_cons.1 hx with rfl | hx
    · exact b3 _ a2
    · exact b2 x hx

/-! #### each observable in at most two spaces -/

theorem occ_eq {spaces : List Space} {c y : String} (hsub : ∀ s ∈ spaces, c ∈ obsOf s → y ∈ obsOf s)
    (hc : 2 ≤ occurrences spaces c) (hy : occurrences spaces y ≤ 2) :
    ∀ s ∈ spaces, c ∈ obsOf s ↔ y ∈ obsOf s := by
  have hfc : spaces.filter (fun s => decide (c ∈ obsOf s)) =
      (spaces.filter (fun s => decide (y ∈ obsOf s))).filter (fun s => decide (c ∈ obsOf s)) := by
    rw [List.filter_filter]
    apply List.filter_congr
    intro s hs
    by_cases h : c ∈ obsOf s
    · simp [h, hsub s hs h]
    · simp [h]
  have hsl : (spaces.filter (fun s => decide (c ∈ obsOf s))).Sublist (spaces.filter (fun s => decide (y ∈ obsOf s))) := by
    rw [hfc]; exact List.filter_sublist
  have heq := hsl.eq_of_length (by
    have := hsl.length_le
    unfold occurrences at hc hy
    omega)
  intro s hs
  constructor
  · exact hsub s hs
  · intro h
    have : s ∈ spaces.filter (fun s => decide (y ∈ obsOf s)) := List.mem_filter.2 ⟨hs, by simpa using h⟩
    rw [← heq] at this
    simpa using (List.mem_filter.1 this).2

theorem closeLim_refl (a : Rat × Rat) : closeLim a a := by
  unfold closeLim
  simp

theorem closeLim_symm {a b : Rat × Rat} (h : closeLim a b) : closeLim b a := by
  unfold closeLim at *
  rw [abs_sub_comm b.1, abs_sub_comm b.2]
  exact h

structure CombInv2 (spaces : List Space) (common : List String) (st : CombineState) : Prop where
  base : CombInv spaces common st
  multi : ∀ c ∈ st.nonUnique, 2 ≤ occurrences spaces c
  closed : ∀ c ∈ st.nonUnique, ∀ y, (∀ s ∈ spaces, c ∈ obsOf s → y ∈ obsOf s) → y ∈ st.nonUnique
  done : ∀ c ∈ common, c ∉ st.nonUnique → AgreeOn spaces c
  disj : ∀ c ∈ st.unique, c ∉ st.nonUnique

theorem combineStep2 {spaces : List Space} {common : List String} {st : CombineState} {c : String}
    (hN : ∀ s ∈ spaces, Good s) (h2 : ∀ x, occurrences spaces x ≤ 2) (hi : CombInv2 spaces common st)
    (hcs : ∃ s ∈ spaces, c ∈ obsOf s) (hcom : ∀ s ∈ spaces, ∀ x ∈ obsOf s, x ∈ common) :
    (combineStep spaces st c = .error .limitsIncompatible ∧ ∃ x ∈ common, ¬ AgreeOn spaces x) ∨
    ∃ st', combineStep spaces st c = .ok st' ∧ CombInv2 spaces common st' ∧ (∀ x ∈ st'.nonUnique, x ∈ st.nonUnique) ∧
      c ∉ st'.nonUnique := by
  unfold combineStep
  by_cases hu : c ∈ st.unique
  · rw [if_pos hu]
    obtain ⟨st', h1, hb, -, -, hn, hun⟩ := combineUnique_ok hN hi.base hu hcs
    right; refine ⟨st', h1, ⟨hb, ?_, ?_, ?_, ?_⟩, ?_, ?_⟩
    · rw [hn]; exact hi.multi
    · rw [hn]; exact hi.closed
    · rw [hn]; exact hi.done
    · rw [hn]; exact fun x hx => hi.disj x (hun x hx)
    · rw [hn]; exact fun _ h => h
    · rw [hn]; exact hi.disj c hu
  · rw [if_neg hu]
    by_cases hnu : c ∈ st.nonUnique
    · rw [if_pos hnu]
      obtain ⟨s0, rest, hW, hcase⟩ := combineShared_cases hN hi.base hcs
      have hWm : ∀ s, s ∈ s0 :: rest ↔ s ∈ spaces ∧ c ∈ obsOf s := by
        intro s; rw [← hW]; simp
      have hsub : ∀ x, (∀ s ∈ s0 :: rest, x ∈ obsOf s) ↔ ∀ s ∈ spaces, c ∈ obsOf s → x ∈ obsOf s := by
        intro x
        constructor
        · intro h s hs hc; exact h s ((hWm s).2 ⟨hs, hc⟩)
        · intro h s hs; exact h s ((hWm s).1 hs).1 ((hWm s).1 hs).2
      rcases hcase with ⟨h1, t, ht, x, hx, hcl⟩ | ⟨hcl, ⟨h1, x, hx, hxn⟩ | ⟨st', h1, hb, -, -, hn, hun⟩⟩
      · left
        refine ⟨h1, x, ?_, ?_⟩
        · exact hcom s0 ((hWm s0).1 List.mem_cons_self).1 x (hx s0 List.mem_cons_self)
        · intro hag
          exact hcl (hag s0 ((hWm s0).1 List.mem_cons_self).1 t ((hWm t).1 (List.mem_cons_of_mem _ ht)).1
            (hx s0 List.mem_cons_self) (hx t (List.mem_cons_of_mem _ ht)))
      · exact (hxn (hi.closed c hnu x ((hsub x).1 hx))).elim
      · right
        refine ⟨st', h1, ⟨hb, ?_, ?_, ?_, ?_⟩, fun x hx => ((hn x).1 hx).1, ?_⟩
        · intro x hx; exact hi.multi x ((hn x).1 hx).1
        · intro x hx y hy
          obtain ⟨hx1, hx2⟩ := (hn x).1 hx
          refine (hn y).2 ⟨hi.closed x hx1 y hy, ?_⟩
          intro hyG
          apply hx2
          rw [hsub] at hyG ⊢
          have e1 := occ_eq hyG (hi.multi c hnu) (h2 y)
          have e2 := occ_eq hy (hi.multi x hx1) (h2 y)
          intro s hs hc
          exact (e2 s hs).2 ((e1 s hs).1 hc)
        · intro x hx hxn
          by_cases hx0 : x ∈ st.nonUnique
          · have hxG : ∀ s ∈ s0 :: rest, x ∈ obsOf s := by
              by_contra hcon
              exact hxn ((hn x).2 ⟨hx0, hcon⟩)
            have e1 := occ_eq ((hsub x).1 hxG) (hi.multi c hnu) (h2 x)
            have hlen : rest.length = 1 := by
              have a1 := hi.multi c hnu
              have a2 := h2 c
              unfold occurrences at a1 a2
              rw [hW] at a1 a2
              simp at a1 a2
              omega
            obtain ⟨t, rfl⟩ := List.length_eq_one_iff.1 hlen
            have hst := hcl t List.mem_cons_self x hxG
            intro a ha b hb' hxa hxb
            have ha' := (hWm a).2 ⟨ha, (e1 a ha).2 hxa⟩
            have hb'' := (hWm b).2 ⟨hb', (e1 b hb').2 hxb⟩
            simp only [List.mem_cons, List.not_mem_nil, or_false] at ha' hb''
            rcases ha' with rfl | rfl <;> rcases hb'' with rfl | rfl
            · exact closeLim_refl _
            · exact hst
            · exact closeLim_symm hst
            · exact closeLim_refl _
          · exact hi.done x hx hx0
        · rw [hun]
          intro x hx hcon
          exact hi.disj x hx ((hn x).1 hcon).1
        · intro hcn
          exact ((hn c).1 hcn).2 fun s hs => ((hWm s).1 hs).2
    · rw [if_neg hnu]
      right
      exact ⟨st, rfl, hi, fun _ h => h, hnu⟩

theorem combineLoop2 {spaces : List Space} {common cs : List String} {st : CombineState}
    (hN : ∀ s ∈ spaces, Good s) (h2 : ∀ x, occurrences spaces x ≤ 2) (hi : CombInv2 spaces common st)
    (hcs : ∀ c ∈ cs, ∃ s ∈ spaces, c ∈ obsOf s) (hcom : ∀ s ∈ spaces, ∀ x ∈ obsOf s, x ∈ common) :
    (cs.foldlM (combineStep spaces) st = .error .limitsIncompatible ∧ ∃ x ∈ common, ¬ AgreeOn spaces x) ∨
    ∃ st', cs.foldlM (combineStep spaces) st = .ok st' ∧ CombInv2 spaces common st' ∧
      (∀ x ∈ st'.nonUnique, x ∈ st.nonUnique) ∧ ∀ c ∈ cs, c ∉ st'.nonUnique := by
  induction cs generalizing st with
  | nil => exact Or.inr ⟨st, rfl, hi, fun _ h => h, by simp⟩
  | cons c cs ih =>
    rw [List.foldlM_cons]
    rcases combineStep2 hN h2 hi (hcs c List.mem_cons_self) hcom with ⟨h1, hx⟩ | ⟨st1, h1, hi1, hs1, hc1⟩
    · exact Or.inl ⟨by rw [h1]; rfl, hx⟩
    · rw [h1, except_bind_ok]
      rcases ih hi1 (fun x hx => hcs x (List.mem_cons_of_mem _ hx)) with ⟨e1, hx⟩ | ⟨st2, e1, hi2, hs2, hc2⟩
      · exact Or.inl ⟨e1, hx⟩
      · refine Or.inr ⟨st2, e1, hi2, fun x hx => hs1 x (hs2 x hx), ?_⟩
        intro x hx
        rcases List.mem_cons.1 hx with rfl | hx
        · exact fun hcon => hc1 (hs2 _ hcon)
        · exact hc2 x hx

/-! ### The whole function -/

theorem foldl_union_mem (o : List String) (acc : List String) (x : String) :
    x ∈ o.foldl (fun acc ob => if ob ∈ acc then acc else acc ++ [ob]) acc ↔ x ∈ acc ∨ x ∈ o := by
  induction o generalizing acc with
  | nil => simp
  | cons a o ih =>
    rw [List.foldl_cons, ih]
    split
    · rename_i ha
      constructor
      · rintro (h | h)
        · exact Or.inl h
        · exact Or.inr (List.mem_cons_of_mem _ h)
      · rintro (h | h)
        · exact Or.inl h
        · rcases List.mem_cons.1 h with rfl | h
          · exact Or.inl ha
          · exact Or.inr h
    · simp only [List.mem_append, List.mem_cons, List.not_mem_nil, or_false]
      tauto

theorem foldl_union_nodup (o : List String) (acc : List String) (h : acc.Nodup) :
    (o.foldl (fun acc ob => if ob ∈ acc then acc else acc ++ [ob]) acc).Nodup := by
  induction o generalizing acc with
  | nil => exact h
  | cons a o ih =>
    rw [List.foldl_cons]
    apply ih
    split
    · exact h
    · rename_i ha
      rw [List.nodup_append]
      refine ⟨h, by simp, ?_⟩
      intro x hx y hy hxy
      simp only [List.mem_cons, List.not_mem_nil, or_false] at hy
      subst hy
      subst hxy
      exact ha hx

theorem commonObs_spec {spaces : List Space} (hN : ∀ s ∈ spaces, Good s) :
    ∃ common, commonObs spaces = some common ∧ common.Nodup ∧ ∀ x, x ∈ common ↔ ∃ s ∈ spaces, x ∈ obsOf s := by
  have key : ∀ (l : List Space) (acc : List String), (∀ s ∈ l, Good s) → acc.Nodup →
      ∃ common, l.foldl (fun acc s =>
        match acc, s.coords.obs with
        | some acc, some o => some (o.foldl (fun acc ob => if ob ∈ acc then acc else acc ++ [ob]) acc)
        | _, _ => none) (some acc) = some common ∧ common.Nodup ∧
        ∀ x, x ∈ common ↔ x ∈ acc ∨ ∃ s ∈ l, x ∈ obsOf s := by
    intro l
    induction l with
    | nil => intro acc _ h; exact ⟨acc, rfl, h, by simp⟩
    | cons s l ih =>
      intro acc hl hacc
      rw [List.foldl_cons]
      have hs := (hl s List.mem_cons_self).1
      simp only [hs]
      obtain ⟨common, h1, h2, h3⟩ := ih _ (fun t ht => hl t (List.mem_cons_of_mem _ ht))
        (foldl_union_nodup (obsOf s) acc hacc)
      refine ⟨common, h1, h2, fun x => ?_⟩
      rw [h3, foldl_union_mem]
      simp only [List.mem_cons, exists_eq_or_imp, or_assoc]
  obtain ⟨common, h1, h2, h3⟩ := key spaces [] hN List.nodup_nil
  exact ⟨common, h1, h2, by simpa using h3⟩

/-- The reordered space has the same observables and limits. -/
def SameBox (s t : Space) : Prop := Good t ∧ (∀ x, x ∈ obsOf t ↔ x ∈ obsOf s) ∧ ∀ x ∈ obsOf s, limOf t x = limOf s x

theorem reorder_all {spaces : List Space} {common : List String} (hN : ∀ s ∈ spaces, Good s) (hn : common.Nodup)
    (hcom : ∀ s ∈ spaces, ∀ x ∈ obsOf s, x ∈ common) :
    ∃ ts, spaces.mapM (fun s => s.withObs (some common) true true) = .ok ts ∧ List.Forall₂ SameBox spaces ts := by
  induction spaces with
  | nil => exact ⟨[], rfl, .nil⟩
  | cons s ss ih =>
    obtain ⟨ts, h1, h2⟩ := ih (fun t ht => hN t (List.mem_cons_of_mem _ ht))
      (fun t ht => hcom t (List.mem_cons_of_mem _ ht))
    have hs := hN s List.mem_cons_self
    obtain ⟨x0, hx0⟩ := List.exists_mem_of_ne_nil _ hs.ne_nil
    obtain ⟨t, ht, hnt⟩ := Named.withObs hs hn (sup := true) (sub := true)
      ⟨x0, hcom s List.mem_cons_self x0 hx0, hx0⟩ (Or.inl rfl) (Or.inl rfl)
    refine ⟨t :: ts, by simp [ht, h1], .cons ⟨hnt.good, ?_, ?_⟩ h2⟩
    · intro x
      rw [hnt.obsOf, List.mem_filter]
      simp only [decide_eq_true_eq, and_iff_right_iff_imp]
      exact hcom s List.mem_cons_self x
    · intro x hx
      exact limOf_named hnt (List.mem_filter.2 ⟨hcom s List.mem_cons_self x hx, by simpa using hx⟩)

theorem occurrences_same {ss ts : List Space} (h : List.Forall₂ SameBox ss ts) (x : String) :
    occurrences ts x = occurrences ss x := by
  unfold occurrences
  induction h with
  | nil => rfl
  | @cons s t ss ts hst _ ih =>
    have : decide (x ∈ obsOf t) = decide (x ∈ obsOf s) := by simp [hst.2.1 x]
    rw [List.filter_cons, List.filter_cons, this]
    split
    · simp [ih]
    · exact ih

theorem agree_same {ss ts : List Space} (h : List.Forall₂ SameBox ss ts) (x : String) :
    AgreeOn ts x ↔ AgreeOn ss x := by
  constructor
  · intro ha s hs t ht hxs hxt
    obtain ⟨s', hs', h1⟩ := forall₂_mem_left h hs
    obtain ⟨t', ht', h2⟩ := forall₂_mem_left h ht
    have := ha s' hs' t' ht' ((h1.2.1 x).2 hxs) ((h2.2.1 x).2 hxt)
    rwa [h1.2.2 x hxs, h2.2.2 x hxt] at this
  · intro ha s' hs' t' ht' hxs hxt
    obtain ⟨s, hs, h1⟩ := forall₂_mem_right h hs'
    obtain ⟨t, ht, h2⟩ := forall₂_mem_right h ht'
    have := ha s hs t ht ((h1.2.1 x).1 hxs) ((h2.2.1 x).1 hxt)
    rwa [h1.2.2 x ((h1.2.1 x).1 hxs), h2.2.2 x ((h2.2.1 x).1 hxt)]

theorem mem_unique_key [DecidableEq κ] {d : List (κ × β)} (h : (d.map (·.1)).Nodup) {p : κ × β} (hp : p ∈ d) :
    dictGet d p.1 = some p.2 := by
  induction d with
  | nil => simp at hp
  | cons q d ih =>
    simp only [List.map_cons, List.nodup_cons] at h
    rcases List.mem_cons.1 hp with rfl | hp
    · simp [dictGet]
    · have hne : q.1 ≠ p.1 := fun hcon => h.1 (hcon ▸ List.mem_map_of_mem hp)
      have := ih h.2 hp
      simp only [dictGet, List.find?_cons, hne, decide_false] at this ⊢
      exact this

/-- The final constructor call. -/
theorem combine_make {spaces : List Space} {common : List String} {st : CombineState} (hne : common ≠ [])
    (hn : common.Nodup) (hi : CombInv spaces common st) (hk : ∀ c ∈ common, c ∈ st.limits.map (·.1)) :
    ∃ r, Space.make (some common) none (.dict (some st.limits) none) = .ok r ∧ Good r ∧ obsOf r = common ∧
      ∀ x ∈ common, ∃ s ∈ spaces, x ∈ obsOf s ∧ limOf r x = limOf s x := by
  let F : String → Rat × Rat := fun x => match dictGet st.limits x with
    | some (.rect lo hi) => (lo, hi)
    | _ => (0, 0)
  have hF : ∀ p ∈ st.limits, p.2 = .rect (F p.1).1 (F p.1).2 := by
    intro p hp
    obtain ⟨s, -, -, h⟩ := hi.lim p hp
    have := mem_unique_key hi.keys hp
    simp only [F, this]
    rw [h]
  obtain ⟨r, hr, hinv, hco⟩ := make_ok (dO := some st.limits) (dA := none) (lims' := common.map F) (some common) none
    (by simpa using hne) (by simp) (by
      intro l hl
      cases hl
      refine ⟨hn, by simp, Or.inl ⟨_, rfl, ?_, ?_⟩⟩
      · intro p hp
        obtain ⟨hp, hpc⟩ := List.mem_filter.1 hp
        have hpc : p.1 ∈ common := by simpa using hpc
        exact ⟨common.idxOf p.1, F p.1, getElem?_idxOf_mem hpc, by
          rw [List.getElem?_map, getElem?_idxOf_mem hpc]; rfl, hF p hp⟩
      · intro k hkc
        obtain ⟨p, hp, rfl⟩ := List.mem_map.1 (hk k hkc)
        exact List.mem_map.2 ⟨p, List.mem_filter.2 ⟨hp, by simpa using hkc⟩, rfl⟩) (by simp)
  have hnr : Named r common F := ⟨by rw [hco], hinv⟩
  refine ⟨r, hr, hnr.good, hnr.obsOf, ?_⟩
  intro x hx
  obtain ⟨p, hp, rfl⟩ := List.mem_map.1 (hk x hx)
  obtain ⟨s, hs, hxs, h⟩ := hi.lim p hp
  refine ⟨s, hs, hxs, ?_⟩
  rw [limOf_named hnr hx]
  have := hF p hp
  rw [h] at this
  injection this with e1 e2
  exact (Prod.ext e1 e2).symm

theorem good_hasLimits {ts : List Space} (h : ∀ t ∈ ts, Good t) (hne : ts ≠ []) :
    ts.all (·.limitsAreFalse) = false ∧ ts.all (fun s => !s.limitsAreSet) = false ∧ ts.all (·.hasLimits) = true := by
  obtain ⟨t, ht⟩ := List.exists_mem_of_ne_nil _ hne
  have hl : ∀ t ∈ ts, t.limitsAreSet = true ∧ t.limitsAreFalse = false ∧ t.hasLimits = true := by
    intro t ht
    have := (h t ht).2.hasLimits.1
    refine ⟨?_, ?_, this⟩
    · unfold Space.hasLimits at this; simp only [Bool.and_eq_true] at this; exact this.1
    · unfold Space.hasLimits at this; simp only [Bool.and_eq_true, Bool.not_eq_true'] at this; exact this.2
  refine ⟨?_, ?_, ?_⟩
  · rw [List.all_eq_false]; exact ⟨t, ht, by simp [(hl t ht).2.1]⟩
  · rw [List.all_eq_false]; exact ⟨t, ht, by simp [(hl t ht).1]⟩
  · rw [List.all_eq_true]; exact fun t ht => (hl t ht).2.2

/-- The state before the loop satisfies the invariants. -/
theorem combine_init {ts : List Space} {common : List String} (hn : common.Nodup)
    (hcom : ∀ s ∈ ts, ∀ x ∈ obsOf s, x ∈ common) :
    CombInv2 ts common ⟨[], common.filter (fun c => decide (1 < occurrences ts c)),
      common.filter (fun c => ¬ decide (1 < occurrences ts c))⟩ := by
  refine ⟨⟨by simp, ?_, hn.filter _, by simp⟩, ?_, ?_, ?_, ?_⟩
  · intro c hc
    by_cases h : 1 < occurrences ts c
    · exact Or.inr (Or.inl (List.mem_filter.2 ⟨hc, by simpa using h⟩))
    · exact Or.inl (List.mem_filter.2 ⟨hc, by simpa using h⟩)
  · intro c hc
    have := (List.mem_filter.1 hc).2
    simp only [decide_eq_true_eq] at this
    exact this
  · intro c hc y hy
    have hcc := (List.mem_filter.1 hc).2
    simp only [decide_eq_true_eq] at hcc
    have hsl : (ts.filter (fun s => decide (c ∈ obsOf s))).length ≤ (ts.filter (fun s => decide (y ∈ obsOf s))).length := by
      have hfc : ts.filter (fun s => decide (c ∈ obsOf s)) =
          (ts.filter (fun s => decide (y ∈ obsOf s))).filter (fun s => decide (c ∈ obsOf s)) := by
        rw [List.filter_filter]
        apply List.filter_congr
        intro s hs
        by_cases h : c ∈ obsOf s
        · simp [h, hy s hs h]
        · simp [h]
      rw [hfc]
      exact List.filter_sublist.length_le
    have hyo : 1 < occurrences ts y := by unfold occurrences at *; omega
    have : ∃ s ∈ ts, y ∈ obsOf s := by
      obtain ⟨s, hs⟩ := List.exists_mem_of_length_pos (l := ts.filter (fun s => decide (y ∈ obsOf s))) (by
        unfold occurrences at hyo; omega)
      exact ⟨s, (List.mem_filter.1 hs).1, by simpa using (List.mem_filter.1 hs).2⟩
    obtain ⟨s, hs, hys⟩ := this
    exact List.mem_filter.2 ⟨hcom s hs y hys, by simpa using hyo⟩
  · intro c hc hnc
    have : ¬ 1 < occurrences ts c := fun h => hnc (List.mem_filter.2 ⟨hc, by simpa using h⟩)
    intro s hs t ht hcs hct
    have hst : s = t := by
      have h1 : s ∈ ts.filter (fun s => decide (c ∈ obsOf s)) := List.mem_filter.2 ⟨hs, by simpa using hcs⟩
      have h2 : t ∈ ts.filter (fun s => decide (c ∈ obsOf s)) := List.mem_filter.2 ⟨ht, by simpa using hct⟩
      unfold occurrences at this
      cases hl : ts.filter (fun s => decide (c ∈ obsOf s)) with
      | nil => rw [hl] at h1; simp at h1
      | cons a l =>
        rw [hl] at h1 h2 this
        cases l with
        | nil => simp at h1 h2; rw [h1, h2]
        | cons b l => simp at this
    rw [hst]
    exact closeLim_refl _
  · intro c hc hcn
    have h1 := (List.mem_filter.1 hc).2
    have h2 := (List.mem_filter.1 hcn).2
    simp only [decide_eq_true_eq] at h1 h2
    exact h1 h2

/-- `combine_spaces` on spaces with observables and limits, reduced to its loop. -/
theorem combineSpaces_loop {spaces : List Space} (hne : spaces ≠ []) (hN : ∀ s ∈ spaces, Good s) :
    ∃ common ts, commonObs spaces = some common ∧ common.Nodup ∧ common ≠ [] ∧
      (∀ x, x ∈ common ↔ ∃ s ∈ spaces, x ∈ obsOf s) ∧ List.Forall₂ SameBox spaces ts ∧
      (∀ s ∈ ts, ∀ x ∈ obsOf s, x ∈ common) ∧ (∀ t ∈ ts, Good t) ∧ (∀ c ∈ common, ∃ s ∈ ts, c ∈ obsOf s) ∧
      combineSpaces spaces = (common.foldlM (combineStep ts)
        ⟨[], common.filter (fun c => decide (1 < occurrences ts c)),
          common.filter (fun c => ¬ decide (1 < occurrences ts c))⟩ >>= fun st =>
        Space.make (some common) none (.dict (some st.limits) none)) := by
  obtain ⟨common, h1, h2, h3⟩ := commonObs_spec hN
  obtain ⟨ts, ht1, ht2⟩ := reorder_all hN h2 (fun s hs x hx => (h3 x).2 ⟨s, hs, hx⟩)
  have htne : ts ≠ [] := by
    rintro rfl
    cases ht2
    exact hne rfl
  have hg : ∀ t ∈ ts, Good t := by
    intro t ht
    obtain ⟨s, _, hst⟩ := forall₂_mem_right ht2 ht
    exact hst.1
  obtain ⟨e1, e2, e3⟩ := good_hasLimits hg htne
  refine ⟨common, ts, h1, h2, ?_, h3, ht2, ?_, hg, ?_, ?_⟩
  · obtain ⟨s, hs⟩ := List.exists_mem_of_ne_nil _ hne
    obtain ⟨x, hx⟩ := List.exists_mem_of_ne_nil _ (hN s hs).ne_nil
    intro hcon
    have := (h3 x).2 ⟨s, hs, hx⟩
    rw [hcon] at this
    simp at this
  · intro t ht x hx
    obtain ⟨s, hs, hst⟩ := forall₂_mem_right ht2 ht
    exact (h3 x).2 ⟨s, hs, (hst.2.1 x).1 hx⟩
  · intro c hc
    obtain ⟨s, hs, hcs⟩ := (h3 c).1 hc
    obtain ⟨t, ht, hst⟩ := forall₂_mem_left ht2 hs
    exact ⟨t, ht, (hst.2.1 c).2 hcs⟩
  · unfold combineSpaces
    simp only [h1, ht1, except_bind_ok, e1, e2, e3, Bool.false_eq_true, if_false, Bool.not_true]
    rfl

theorem Created.good {s : Space} (h : Created s) : Good s := by
  obtain ⟨o, a, lower, upper, reqs, s0, ho, ha, hs, hr, hm, happ⟩ := h
  obtain ⟨hinv, hco, -, -⟩ := make_rect_inv (o := some o) (by rintro l ⟨⟩; exact ho) ha hs
  obtain ⟨idx, lims', hp, hi, h1, h2⟩ := applyAll_step hinv (fun r h => (hr r h).1) hm happ
  obtain ⟨o', ho', -⟩ := h1 (fun r h => (hr r h).2) o (by rw [hco])
  exact (hi.named ho').good

theorem buildDict_values {o : List String} {v : Lim} {n : Nat} {p : String × Lim}
    (hp : p ∈ buildDict o (List.replicate n v)) : p.2 = v := by
  have key : ∀ (l : List (String × Lim)) (acc : List (String × Lim)), (∀ q ∈ l, q.2 = v) → (∀ q ∈ acc, q.2 = v) →
      ∀ q ∈ l.foldl (fun d p => dictSet d p.1 p.2) acc, q.2 = v := by
    intro l
    induction l with
    | nil => intro acc _ h q hq; exact h q hq
    | cons x l ih =>
      intro acc hl hacc
      apply ih _ (fun q hq => hl q (List.mem_cons_of_mem _ hq))
      intro q hq
      rcases mem_dictSet hq with hq | rfl
      · exact hacc q hq
      · exact hl x List.mem_cons_self
  refine key _ [] ?_ (by simp) p hp
  intro q hq
  have := (List.of_mem_zip (a := q.1) (b := q.2) hq).2
  exact (List.mem_replicate.1 this).2

theorem buildDict_keys {o : List String} {lims : List Lim} (hl : o.length = lims.length) {x : String} (hx : x ∈ o) :
    x ∈ (buildDict o lims).map (·.1) := by
  have key : ∀ (l : List (String × Lim)) (acc : List (String × Lim)),
      x ∈ (l.foldl (fun d p => dictSet d p.1 p.2) acc).map (·.1) ↔ x ∈ acc.map (·.1) ∨ x ∈ l.map (·.1) := by
    intro l
    induction l with
    | nil => simp
    | cons q l ih => intro acc; rw [List.foldl_cons, ih, keys_dictSet, List.map_cons, List.mem_cons, or_assoc]
  unfold buildDict
  rw [key]
  right
  rw [List.map_fst_zip (by omega)]
  exact hx

/-- A space created without limits (`None`, or `False`). -/
theorem make_const {o : List String} {lim : LimIn} {v : Lim} {s : Space}
    (hlim : (lim = .none ∧ v = .unset) ∨ (lim = .false ∧ v = .off))
    (h : Space.make (some o) none lim = .ok s) :
    s.coords = ⟨some o, none⟩ ∧ (∀ l ∈ s.limValues, l = v) ∧ s.limValues ≠ [] := by
  have hne : o ≠ [] := by
    rintro rfl
    rcases hlim with ⟨rfl, -⟩ | ⟨rfl, -⟩ <;> simp [Space.make, Coords.make, falsy] at h
  have hfal : falsy (some o) = false := by cases o with | nil => exact (hne rfl).elim | cons _ _ => rfl
  have hs : s = ⟨⟨some o, none⟩, some ((buildDict o (List.replicate o.length v)).filter (fun p => decide (p.1 ∈ o))), none⟩ := by
    rcases hlim with ⟨rfl, rfl⟩ | ⟨rfl, rfl⟩ <;>
    · simp [Space.make, Coords.make, hfal, limitPieces, Coords.nObs, normaliseDict, pickOrDerive] at h
      exact h.symm
  subst hs
  refine ⟨rfl, ?_, ?_⟩
  · intro l hl
    simp only [Space.limValues, Option.getD_some, List.mem_map] at hl
    obtain ⟨p, hp, rfl⟩ := hl
    exact buildDict_values (List.mem_filter.1 hp).1
  · obtain ⟨x, hx⟩ := List.exists_mem_of_ne_nil _ hne
    obtain ⟨p, hp, rfl⟩ := List.mem_map.1 (buildDict_keys (o := o) (lims := List.replicate o.length v) (by simp) hx)
    have : p.2 ∈ Space.limValues ⟨⟨some o, none⟩, some ((buildDict o (List.replicate o.length v)).filter (fun p => decide (p.1 ∈ o))), none⟩ := by
      simp only [Space.limValues, Option.getD_some]
      exact List.mem_map_of_mem (List.mem_filter.2 ⟨hp, by simpa using hx⟩)
    exact List.ne_nil_of_mem this

end Zfit.Sp
