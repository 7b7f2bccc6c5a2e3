import Verif.Data.Spec
import Mathlib.Data.List.Nodup

namespace Zfit.Dat

open Zfit

/-- Entry `i` of a row. -/
abbrev ent (r : List Rat) (i : Nat) : Rat := r.getD i 0

/-- The dataset shows the table `tab` with `n` columns. -/
def Holds : LDS → Nat → List (List Rat) → Prop
  | .tensor t m, n, tab => m.length = n ∧ (∀ j ∈ m, j < t.cols) ∧ (∀ r ∈ t.rows, r.length = t.cols) ∧
      tab = t.rows.map (fun r => m.map (ent r))
  | .columns c, n, tab => (∀ row ∈ tab, row.length = n) ∧
      c = (List.range n).map (fun j => tab.map (fun r => ent r j))

theorem Holds.rows {d : LDS} {n : Nat} {tab : List (List Rat)} (h : Holds d n tab) : ∀ row ∈ tab, row.length = n := by
  cases d with
  | tensor t m =>
    obtain ⟨h1, -, -, h4⟩ := h
    subst h4
    intro row hr
    obtain ⟨r, -, rfl⟩ := List.mem_map.1 hr
    simpa using h1
  | columns c => exact h.1

theorem Holds.ndims {d : LDS} {n : Nat} {tab : List (List Rat)} (h : Holds d n tab) : d.ndims = n := by
  cases d with
  | tensor t m => exact h.1
  | columns c =>
    obtain ⟨-, h2⟩ := h
    simp [LDS.ndims, h2]

theorem mapGet_mapM {α : Type} {l : List α} {idx : List Nat} (dflt : α) (h : ∀ i ∈ idx, i < l.length) :
    idx.mapM (mapGet l) = .ok (idx.map (fun i => l.getD i dflt)) := by
  apply mapM_ok_of_forall
  intro i hi
  have := h i hi
  simp [mapGet, this]

theorem pyGet_mapM {α : Type} {l : List α} {idx : List Nat} (dflt : α) (h : ∀ i ∈ idx, i < l.length) :
    idx.mapM (pyGet l) = .ok (idx.map (fun i => l.getD i dflt)) := by
  apply mapM_ok_of_forall
  intro i hi
  have := h i hi
  simp [pyGet, this]

theorem getD_map_lt {α β : Type} (l : List α) (f : α → β) {i : Nat} (h : i < l.length) (a : α) (b : β) :
    (l.map f).getD i b = f (l.getD i a) := by
  simp [h]

theorem stack_map {idx : List Nat} (hne : idx ≠ []) (tab : List (List Rat)) (f : Nat → List Rat → Rat) :
    stackCols (idx.map (fun i => tab.map (f i))) = .ok ⟨idx.length, tab.map (fun r => idx.map (fun i => f i r))⟩ := by
  obtain ⟨i, is, rfl⟩ := List.exists_cons_of_ne_nil hne
  simp only [stackCols, List.map_cons]
  rw [if_pos]
  · simp only [List.length_cons, List.length_map, Except.ok.injEq, Tensor.mk.injEq, true_and]
    apply List.ext_getElem
    · simp
    · intro k h1 h2
      simp only [List.length_map, List.length_range] at h1
      simp [h1]
  · simp

theorem Holds.read {d : LDS} {n : Nat} {tab : List (List Rat)} (h : Holds d n tab) {idx : List Nat} (hne : idx ≠ [])
    (hlt : ∀ i ∈ idx, i < n) : d.read idx = .ok ⟨idx.length, tab.map (fun r => idx.map (ent r))⟩ := by
  cases d with
  | tensor t m =>
    obtain ⟨h1, h2, h3, h4⟩ := h
    subst h1
    simp only [LDS.read]
    rw [mapGet_mapM 0 hlt, except_bind_ok]
    unfold Tensor.gather
    rw [mapM_ok_of_forall _ (fun r => (idx.map (fun i => m.getD i 0)).map (ent r)), except_bind_ok]
    · simp only [List.length_map, except_pure, Except.ok.injEq, Tensor.mk.injEq, true_and]
      subst h4
      simp only [List.map_map]
      apply List.map_congr_left
      intro r _
      simp only [Function.comp]
      apply List.map_congr_left
      intro i hi
      simp only [ent, Function.comp]
      rw [getD_map_lt m (fun j => r.getD j 0) (hlt i hi) 0 0]
    · intro r hr
      apply pyGet_mapM
      intro j hj
      obtain ⟨i, hi, rfl⟩ := List.mem_map.1 hj
      rw [h3 r hr]
      apply h2
      rw [List.getD_eq_getElem?_getD, List.getElem?_eq_getElem (hlt i hi), Option.getD_some]
      exact List.getElem_mem _
  | columns c =>
    obtain ⟨h1, h2⟩ := h
    simp only [LDS.read]
    have hc : c.length = n := by simp [h2]
    rw [mapGet_mapM [] (by rw [hc]; exact hlt), except_bind_ok]
    have : idx.map (fun i => c.getD i []) = idx.map (fun i => tab.map (fun r => ent r i)) := by
      apply List.map_congr_left
      intro i hi
      have := hlt i hi
      simp [h2, this]
    rw [this]
    exact stack_map hne tab (fun i r => ent r i)

theorem Holds.force {d : LDS} {n : Nat} {tab : List (List Rat)} (h : Holds d n tab) :
    ∃ d', d.force = .ok d' ∧ Holds d' n tab := by
  cases d with
  | columns c => exact ⟨_, rfl, h⟩
  | tensor t m =>
    have hr := h.rows
    obtain ⟨h1, h2, h3, h4⟩ := h
    subst h1
    refine ⟨.columns (m.map (fun j => t.rows.map (fun r => ent r j))), ?_, hr, ?_⟩
    · simp only [LDS.force]
      rw [mapM_ok_of_forall _ (fun j => t.rows.map (fun r => ent r j)), except_bind_ok]
      · rfl
      · intro j hj
        apply mapM_ok_of_forall
        intro r hr'
        have : j < r.length := by rw [h3 r hr']; exact h2 j hj
        simp [pyGet, this, ent]
    · subst h4
      apply List.ext_getElem
      · simp
      · intro i hi1 hi2
        simp only [List.length_map] at hi1
        simp [ent, hi1]

theorem Holds.withIndices {d : LDS} {n : Nat} {tab : List (List Rat)} (h : Holds d n tab) {idx : List Nat}
    (hlt : ∀ i ∈ idx, i < n) :
    ∃ d', d.withIndices idx = .ok d' ∧ Holds d' idx.length (tab.map (fun r => idx.map (ent r))) ∧
      ((∃ t m, d = .tensor t m) → ∃ t m, d' = .tensor t m) := by
  cases d with
  | tensor t m =>
    obtain ⟨h1, h2, h3, h4⟩ := h
    subst h1
    refine ⟨.tensor t (idx.map (fun i => m.getD i 0)), ?_, ⟨by simp, ?_, h3, ?_⟩, fun _ => ⟨_, _, rfl⟩⟩
    · simp only [LDS.withIndices]
      rw [mapGet_mapM 0 hlt]
      rfl
    · intro j hj
      obtain ⟨i, hi, rfl⟩ := List.mem_map.1 hj
      apply h2
      rw [List.getD_eq_getElem?_getD, List.getElem?_eq_getElem (hlt i hi), Option.getD_some]
      exact List.getElem_mem _
    · subst h4
      simp only [List.map_map]
      apply List.map_congr_left
      intro r _
      simp only [Function.comp]
      apply List.map_congr_left
      intro i hi
      simp only [ent, Function.comp]
      rw [getD_map_lt m (fun j => r.getD j 0) (hlt i hi) 0 0]
  | columns c =>
    obtain ⟨h1, h2⟩ := h
    have hc : c.length = n := by simp [h2]
    refine ⟨.columns (idx.map (fun i => c.getD i [])), ?_, ⟨?_, ?_⟩, by rintro ⟨t, m, ⟨⟩⟩⟩
    · simp only [LDS.withIndices]
      rw [mapGet_mapM [] (by rw [hc]; exact hlt)]
      rfl
    · intro row hr
      obtain ⟨r, -, rfl⟩ := List.mem_map.1 hr
      simp
    · apply List.ext_getElem
      · simp
      · intro k hk1 hk2
        simp only [List.length_map] at hk1
        have := hlt idx[k] (List.getElem_mem _)
        simp [h2, ent, hk1, this]

theorem Holds.value {d : LDS} {n : Nat} {tab : List (List Rat)} (h : Holds d n tab) {idx : List Nat} (hne : idx ≠ [])
    (hlt : ∀ i ∈ idx, i < n) :
    ∃ d', d.value (some idx) = .ok (⟨idx.length, tab.map (fun r => idx.map (ent r))⟩, d') ∧ Holds d' n tab := by
  simp only [LDS.value]
  by_cases hf : idx.dedup.length < d.ndims
  · obtain ⟨d', h1, h2⟩ := h.force
    refine ⟨d', ?_, h2⟩
    rw [if_pos hf, h1, except_bind_ok, h2.read hne hlt, except_bind_ok]
    rfl
  · refine ⟨d, ?_, h⟩
    rw [if_neg hf, except_bind_ok, h.read hne hlt, except_bind_ok]
    rfl

/-! ### Masks -/

theorem maskSelect_map {α β : Type} (l : List α) (f : α → β) (g : α → Bool) :
    maskSelect (l.map f) (l.map g) = (l.filter g).map f := by
  induction l with
  | nil => rfl
  | cons a l ih =>
    simp only [List.map_cons, maskSelect, List.filter_cons, ih]
    split <;> simp

theorem maskSelect_zip {α β : Type} (l : List α) (w : List β) (g : α → Bool) (hl : w.length = l.length) :
    maskSelect w (l.map g) = ((l.zip w).filter (fun e => g e.1)).map (·.2) := by
  induction l generalizing w with
  | nil =>
    have : w = [] := List.length_eq_zero_iff.1 (by simpa using hl)
    subst this
    rfl
  | cons a l ih =>
    cases w with
    | nil => simp at hl
    | cons b w =>
      simp only [List.length_cons, Nat.add_right_cancel_iff] at hl
      simp only [List.map_cons, maskSelect, List.zip_cons_cons, List.filter_cons, ih w hl]
      split <;> simp

theorem checkWeights_ok {pts : List (String → Rat)} {w : Option (List Rat)} (h : Weighted pts w) {n : Nat}
    (hn : n = pts.length) : checkWeights n w = .ok () := by
  cases w with
  | none => rfl
  | some l => simp [checkWeights, h l rfl, hn]

theorem cutLoop_some (s : DSpace) {ls : List (List (Rat × Rat))} (hls : s.lims = some ls) (n : Nat)
    (tab : List (List Rat)) (axs : List Nat) (hax : ∀ a ∈ axs, a < n) (g : List Rat → Bool)
    (new : List (List Rat)) :
    cutLoop s ((List.range n).map (fun j => tab.map (fun r => ent r j))) axs (some (tab.map g)) new =
      .ok (some (tab.map (fun r => g r && axs.all (fun a => s.insideAxis a (ent r a)))),
        new ++ axs.map (fun j => tab.map (fun r => ent r j))) := by
  induction axs generalizing g new with
  | nil => simp [cutLoop]
  | cons a axs ih =>
    have ha : a < n := hax a (by simp)
    simp only [cutLoop]
    have : mapGet ((List.range n).map (fun j => tab.map (fun r => ent r j))) a = .ok (tab.map (fun r => ent r a)) := by
      simp [mapGet, ha]
    rw [this, except_bind_ok]
    have e : andMask (some (tab.map g)) ((tab.map (fun r => ent r a)).map (s.insideAxis a)) =
        .ok (some (tab.map (fun r => g r && s.insideAxis a (ent r a)))) := by
      simp only [andMask, List.length_map, ne_eq, not_true_eq_false, if_false,
        Except.ok.injEq, Option.some.injEq, List.map_map]
      rw [List.zipWith_map]
      simp [List.zipWith_self]
    simp only [hls, Option.isSome_some, if_true]
    rw [e, except_bind_ok, ih (fun x hx => hax x (by simp [hx]))]
    simp [Bool.and_assoc]

theorem cutLoop_none (s : DSpace) (hls : s.lims = none) (n : Nat) (tab : List (List Rat)) (axs : List Nat)
    (hax : ∀ a ∈ axs, a < n) (new : List (List Rat)) :
    cutLoop s ((List.range n).map (fun j => tab.map (fun r => ent r j))) axs none new =
      .ok (none, new ++ axs.map (fun j => tab.map (fun r => ent r j))) := by
  induction axs generalizing new with
  | nil => simp [cutLoop]
  | cons a axs ih =>
    have ha : a < n := hax a (by simp)
    simp only [cutLoop]
    have : mapGet ((List.range n).map (fun j => tab.map (fun r => ent r j))) a = .ok (tab.map (fun r => ent r a)) := by
      simp [mapGet, ha]
    rw [this, except_bind_ok]
    simp only [hls, Option.isSome_none, Bool.false_eq_true, if_false, except_bind_ok]
    rw [ih (fun x hx => hax x (by simp [hx]))]
    simp

theorem cutLoop_start (s : DSpace) {ls : List (List (Rat × Rat))} (hls : s.lims = some ls) (n : Nat) (hn : n ≠ 0)
    (tab : List (List Rat)) :
    cutLoop s ((List.range n).map (fun j => tab.map (fun r => ent r j))) (List.range n) none [] =
      .ok (some (tab.map (fun r => (List.range n).all (fun a => s.insideAxis a (ent r a)))),
        (List.range n).map (fun j => tab.map (fun r => ent r j))) := by
  obtain ⟨m, rfl⟩ := Nat.exists_eq_succ_of_ne_zero hn
  rw [List.range_succ_eq_map]
  rw [← List.range_succ_eq_map]
  conv_lhs => rw [show List.range (m+1) = 0 :: (List.range m).map Nat.succ from List.range_succ_eq_map]
  simp only [cutLoop]
  have : mapGet ((0 :: (List.range m).map Nat.succ).map (fun j => tab.map (fun r => ent r j))) 0 =
      .ok (tab.map (fun r => ent r 0)) := by
    simp [mapGet]
  rw [this, except_bind_ok]
  simp only [hls, Option.isSome_some, if_true, andMask, except_bind_ok, List.map_map, List.nil_append]
  have h := cutLoop_some s hls (m+1) tab ((List.range m).map Nat.succ) (by simp)
    (s.insideAxis 0 ∘ fun r => ent r 0) [tab.map (fun r => ent r 0)]
  rw [show (List.range (m+1)) = 0 :: (List.range m).map Nat.succ from List.range_succ_eq_map] at h
  rw [h]
  simp [List.range_succ_eq_map]

/-- Whether an event survives the cut of columns: every coordinate inside some leaf's interval. -/
def perAxis (s : DSpace) (r : List Rat) : Bool :=
  (List.range s.obs.length).all (fun a => s.insideAxis a (ent r a))

theorem cutColumns_ok (s : DSpace) (hne : s.obs ≠ []) (tab : List (List Rat)) (w : Option (List Rat))
    (hw : ∀ l, w = some l → l.length = tab.length) :
    cutColumns s ((List.range s.obs.length).map (fun j => tab.map (fun r => ent r j))) w =
      .ok ((List.range s.obs.length).map (fun j => (tab.filter (perAxis s)).map (fun r => ent r j)),
        w.map (fun l => ((tab.zip l).filter (fun e => perAxis s e.1)).map (·.2))) := by
  have hn : s.obs.length ≠ 0 := by simpa using hne
  have hcw : checkWeights ((((List.range s.obs.length).map (fun j => tab.map (fun r => ent r j))).headD []).length) w =
      .ok () := by
    obtain ⟨m, hm⟩ := Nat.exists_eq_succ_of_ne_zero hn
    rw [hm, List.range_succ_eq_map]
    cases w with
    | none => rfl
    | some l => simp [checkWeights, hw l rfl]
  unfold cutColumns
  rw [hcw, except_bind_ok]
  cases hls : s.lims with
  | none =>
    rw [cutLoop_none s hls _ _ _ (by simp) _]
    have hp : ∀ r, perAxis s r = true := by
      intro r; simp [perAxis, DSpace.insideAxis, hls]
    rw [List.filter_eq_self.2 (fun r _ => hp r)]
    simp only [except_bind_ok, List.nil_append, except_pure, hp]
    cases w with
    | none => simp
    | some l => simp [List.map_snd_zip (l₁ := tab) (l₂ := l) (by rw [hw l rfl])]
  | some ls =>
    rw [cutLoop_start s hls _ hn]
    simp only [except_bind_ok, except_pure]
    have e : ∀ r, (List.range s.obs.length).all (fun a => s.insideAxis a (ent r a)) = perAxis s r := fun _ => rfl
    simp only [e]
    by_cases hall : (tab.map (perAxis s)).all id = true
    · rw [if_pos hall]
      have hp : ∀ r ∈ tab, perAxis s r = true := by
        simpa using hall
      rw [List.filter_eq_self.2 hp]
      cases w with
      | none => simp
      | some l =>
        have : (tab.zip l).filter (fun e => perAxis s e.1) = tab.zip l := by
          rw [List.filter_eq_self]
          rintro ⟨r, x⟩ hx
          exact hp r (List.of_mem_zip hx).1
        simp [this, List.map_snd_zip (l₁ := tab) (l₂ := l) (by rw [hw l rfl])]
    · rw [if_neg hall]
      simp only [List.map_map, Except.ok.injEq, Prod.mk.injEq]
      constructor
      · apply List.map_congr_left
        intro j _
        simp only [Function.comp]
        rw [maskSelect_map]
      · cases w with
        | none => rfl
        | some l => simp [maskSelect_zip tab l (perAxis s) (hw l rfl)]

theorem Holds.makeColumns {s : DSpace} (hne : s.obs ≠ []) {c : List (List Rat)} {tab : List (List Rat)}
    (h : Holds (.columns c) s.obs.length tab) {w : Option (List Rat)} (hw : ∀ l, w = some l → l.length = tab.length) :
    ∃ d, Data.make s (.columns c) w false = .ok d ∧ d.space = s ∧
      Holds d.ds s.obs.length (tab.filter (perAxis s)) ∧
      d.weights = w.map (fun l => ((tab.zip l).filter (fun e => perAxis s e.1)).map (·.2)) ∧ ∃ c', d.ds = .columns c' := by
  obtain ⟨h1, h2⟩ := h
  simp only [Data.make, Bool.false_eq_true, if_false]
  rw [h2, cutColumns_ok s hne tab w hw]
  refine ⟨_, rfl, rfl, ⟨?_, rfl⟩, rfl, _, rfl⟩
  intro row hr
  exact h1 row (List.mem_filter.1 hr).1

theorem map_range_ent {n : Nat} {r : List Rat} (h : r.length = n) : (List.range n).map (ent r) = r := by
  apply List.ext_getElem
  · simp [h]
  · intro i h1 h2
    simp [ent, h2]

theorem Holds.fromTensor {n : Nat} {tab : List (List Rat)} (h : ∀ r ∈ tab, r.length = n) :
    ∃ d, LDS.fromTensor ⟨n, tab⟩ n = .ok d ∧ Holds d n tab ∧ ∃ t m, d = .tensor t m := by
  refine ⟨.tensor ⟨n, tab⟩ (List.range n), by simp [LDS.fromTensor], ⟨by simp, by simp, h, ?_⟩, _, _, rfl⟩
  have : tab.map (fun r => (List.range n).map (ent r)) = tab.map id := by
    apply List.map_congr_left
    intro r hr
    exact map_range_ent (h r hr)
  rw [this]; simp

theorem Holds.makeTensor {s : DSpace} (hne : s.obs ≠ []) {t : Tensor} {m : List Nat} {tab : List (List Rat)}
    (h : Holds (.tensor t m) s.obs.length tab) {w : Option (List Rat)} (hw : ∀ l, w = some l → l.length = tab.length) :
    ∃ d, Data.make s (.tensor t m) w false = .ok d ∧ d.space = s ∧
      Holds d.ds s.obs.length (tab.filter s.insideRow) ∧
      d.weights = w.map (fun l => ((tab.zip l).filter (fun e => s.insideRow e.1)).map (·.2)) ∧
      ∃ t' m', d.ds = .tensor t' m' := by
  have hn : s.obs.length ≠ 0 := by simpa using hne
  have hrange : List.range s.obs.length ≠ [] := by simpa using hne
  have hread := h.read hrange (by simp)
  have htab : tab.map (fun r => (List.range s.obs.length).map (ent r)) = tab := by
    have : tab.map (fun r => (List.range s.obs.length).map (ent r)) = tab.map id := by
      apply List.map_congr_left
      intro r hr
      exact map_range_ent (h.rows r hr)
    rw [this]; simp
  rw [htab, List.length_range] at hread
  simp only [Data.make, Bool.false_eq_true, if_false, LDS.value, h.ndims, hread, except_bind_ok, except_pure]
  have hcw : checkWeights tab.length w = .ok () := by
    cases w with
    | none => rfl
    | some l => simp [checkWeights, hw l rfl]
  have hcut : cutTensor s ⟨s.obs.length, tab⟩ w = .ok (⟨s.obs.length, tab.filter s.insideRow⟩,
      w.map (fun l => ((tab.zip l).filter (fun e => s.insideRow e.1)).map (·.2))) := by
    unfold cutTensor
    simp only [hcw, except_bind_ok]
    cases hls : s.lims with
    | none =>
      have hp : ∀ r, s.insideRow r = true := by intro r; simp [DSpace.insideRow, hls]
      rw [List.filter_eq_self.2 (fun r _ => hp r)]
      simp only [hp, except_pure]
      cases w with
      | none => simp
      | some l => simp [List.map_snd_zip (l₁ := tab) (l₂ := l) (by rw [hw l rfl])]
    | some ls =>
      simp only [ne_eq, not_true_eq_false, if_false, except_pure]
      have := maskSelect_map tab id s.insideRow
      simp only [List.map_id] at this
      simp only [this, Except.ok.injEq, Prod.mk.injEq, true_and]
      cases w with
      | none => rfl
      | some l => simp [maskSelect_zip tab l s.insideRow (hw l rfl)]
  rw [hcut, except_bind_ok]
  obtain ⟨d, h1, h2, h3⟩ := Holds.fromTensor (n := s.obs.length) (tab := tab.filter s.insideRow)
    (fun r hr => h.rows r (List.mem_filter.1 hr).1)
  rw [h1, except_bind_ok]
  exact ⟨_, rfl, rfl, h2, rfl, h3⟩

/-! ### Points -/

theorem ent_point {obs : List String} {o : String} (h : o ∈ obs) (p : String → Rat) :
    ent (obs.map p) (obs.idxOf o) = p o := by
  have := List.idxOf_lt_length_of_mem h
  simp [ent, this]

theorem insideRow_point {s : DSpace} (hl : ∀ ls, s.lims = some ls → ∀ b ∈ ls, b.length = s.obs.length)
    (p : String → Rat) : s.insideRow (s.obs.map p) = s.contains p := by
  unfold DSpace.insideRow DSpace.contains
  cases h : s.lims with
  | none => rfl
  | some ls =>
    simp only
    rw [Bool.eq_iff_iff]
    simp only [List.any_eq_true]
    have key : ∀ (obs : List String) (b : List (Rat × Rat)),
        ((b.zip (obs.map p)).all (fun q => inInterval q.1 q.2)) =
        ((obs.zip b).all (fun e => decide (e.2.1 ≤ p e.1) && decide (p e.1 ≤ e.2.2))) := by
      intro obs
      induction obs with
      | nil => intro b; simp
      | cons o obs ih =>
        intro b
        cases b with
        | nil => rfl
        | cons x b =>
          have := ih b
          simp only [inInterval] at this
          simp only [List.map_cons, List.zip_cons_cons, List.all_cons, inInterval, this]
    simp only [key]

/-- By name: every coordinate lies in the interval of its observable in some leaf (not necessarily the same leaf). -/
def DSpace.containsPerObs (s : DSpace) (p : String → Rat) : Bool :=
  s.obs.all (fun o => match s.lims with
    | none => true
    | some ls => ls.any (fun b => match b[s.obs.idxOf o]? with
      | some l => decide (l.1 ≤ p o) && decide (p o ≤ l.2)
      | none => true))

theorem perAxis_point {s : DSpace} (hn : s.obs.Nodup) (p : String → Rat) :
    perAxis s (s.obs.map p) = s.containsPerObs p := by
  unfold perAxis DSpace.containsPerObs
  rw [Bool.eq_iff_iff]
  simp only [List.all_eq_true, List.mem_range]
  constructor
  · intro h o ho
    have := h (s.obs.idxOf o) (List.idxOf_lt_length_of_mem ho)
    rw [ent_point ho] at this
    exact this
  · intro h a ha
    have := h s.obs[a] (List.getElem_mem _)
    rw [hn.idxOf_getElem a ha] at this
    simp only [ent, List.getD_eq_getElem?_getD, List.getElem?_map, List.getElem?_eq_getElem ha, Option.map_some,
      Option.getD_some]
    exact this

theorem perObs_of_contains {s : DSpace} (hl : ∀ ls, s.lims = some ls → ∀ b ∈ ls, b.length = s.obs.length)
    (p : String → Rat) (h : s.contains p = true) : s.containsPerObs p = true := by
  unfold DSpace.contains at h
  unfold DSpace.containsPerObs
  cases hs : s.lims with
  | none => simp
  | some ls =>
    simp only [hs, List.any_eq_true] at h
    obtain ⟨b, hb, hall⟩ := h
    rw [List.all_eq_true] at hall
    simp only [List.all_eq_true]
    intro o ho
    rw [List.any_eq_true]
    refine ⟨b, hb, ?_⟩
    have hi := List.idxOf_lt_length_of_mem ho
    have hib : s.obs.idxOf o < b.length := by rw [hl ls hs b hb]; exact hi
    rw [List.getElem?_eq_getElem hib]
    have := hall (o, b[s.obs.idxOf o]) (by
      rw [List.mem_iff_getElem?]
      refine ⟨s.obs.idxOf o, ?_⟩
      simp [List.getElem?_zip_eq_some, hib, List.getElem?_eq_getElem hi])
    exact this

theorem contains_of_perObs {s : DSpace} (hn : s.obs.Nodup) (hsingle : s.Single) (p : String → Rat)
    (h : s.containsPerObs p = true) :
    s.contains p = true := by
  unfold DSpace.containsPerObs at h
  unfold DSpace.contains
  cases hs : s.lims with
  | none => rfl
  | some ls =>
    simp only [hs, List.all_eq_true] at h
    have h1 := hsingle ls hs
    obtain ⟨b, rfl⟩ := List.length_eq_one_iff.1 h1
    simp only [List.any_cons, List.any_nil, Bool.or_false] at h ⊢
    rw [List.all_eq_true]
    rintro ⟨o, l⟩ he
    obtain ⟨i, hi⟩ := List.mem_iff_getElem?.1 he
    simp only [List.getElem?_zip_eq_some] at hi
    have ho := List.mem_of_getElem? hi.1
    have := h o ho
    obtain ⟨hlt, hoi⟩ := List.getElem?_eq_some_iff.1 hi.1
    have hidx : s.obs.idxOf o = i := by
      rw [← hoi]; exact hn.idxOf_getElem i hlt
    rw [hidx, hi.2] at this
    exact this

end Zfit.Dat
