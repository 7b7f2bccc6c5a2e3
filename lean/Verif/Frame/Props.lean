import Verif.Frame.Model
import Verif.Data.Props

/-! C204-C207: data read by name, as tables and from files. -/

namespace Zfit.Frame

open Zfit Zfit.Dat

/-- The values of one observable. -/
def vals (pts : List (String → Rat)) (o : String) : List Rat := pts.map fun p => p o

/-! ## Reading -/

theorem value_keeps {d d' : Data} {l : Option (List String)} {t : Tensor} (h : d.value l = .ok (t, d')) :
    d'.space = d.space ∧ d'.weights = d.weights := by
  unfold Data.value at h
  cases l with
  | none =>
    dsimp only at h
    obtain ⟨idx, _, h⟩ := bind_eq_ok.1 h
    obtain ⟨r, _, h⟩ := bind_eq_ok.1 h
    cases h
    exact ⟨rfl, rfl⟩
  | some l =>
    dsimp only at h
    obtain ⟨s, _, h⟩ := bind_eq_ok.1 h
    obtain ⟨idx, _, h⟩ := bind_eq_ok.1 h
    obtain ⟨r, _, h⟩ := bind_eq_ok.1 h
    cases h
    exact ⟨rfl, rfl⟩

/-- A read leaves the data as it was, for the user. -/
theorem shows_after {d : Data} {pts : List (String → Rat)} {w : Option (List Rat)} (h : d.Shows pts w)
    (l : Option (List String)) (hl : ∀ x, l = some x → x ≠ [] ∧ ∀ o ∈ x, o ∈ d.space.obs) :
    ∃ d', d.value l = .ok (⟨(l.getD d.space.obs).length, table (l.getD d.space.obs) pts⟩, d') ∧ d'.Shows pts w ∧ d'.space = d.space := by
  obtain ⟨d', hv⟩ := Shows.read h l hl
  obtain ⟨h1, h2⟩ := value_keeps hv
  refine ⟨d', hv, ⟨h2.trans h.1, ?_⟩, h1⟩
  intro reads hreads
  have := h.2 (l :: reads) (by
    intro x hx
    rcases List.mem_cons.1 hx with hx | hx
    · exact hl x hx.symm
    · have := hreads x hx
      rw [h1] at this
      exact this)
  have hd : d.readAll (l :: reads) = (d.value l).bind fun r => (r.2.readAll reads).bind fun rest => .ok (r.1 :: rest) := rfl
  rw [hd, hv] at this
  cases hr : d'.readAll reads with
  | error e =>
    have h3 : ((Except.ok (⟨(l.getD d.space.obs).length, table (l.getD d.space.obs) pts⟩, d') : Except Err (Tensor × Data)).bind
        fun r => (r.2.readAll reads).bind fun rest => .ok (r.1 :: rest)) = .error e := by
      change ((d'.readAll reads).bind fun rest => .ok (_ :: rest)) = _
      rw [hr]
      rfl
    rw [h3] at this
    cases this
  | ok rest =>
    have h3 : ((Except.ok (⟨(l.getD d.space.obs).length, table (l.getD d.space.obs) pts⟩, d') : Except Err (Tensor × Data)).bind
        fun r => (r.2.readAll reads).bind fun rest => .ok (r.1 :: rest)) =
        .ok (⟨(l.getD d.space.obs).length, table (l.getD d.space.obs) pts⟩ :: rest) := by
      change ((d'.readAll reads).bind fun rest => .ok (_ :: rest)) = _
      rw [hr]
      rfl
    rw [h3] at this
    have := Except.ok.inj this
    rw [List.map_cons] at this
    rw [h1, (List.cons.inj this).2]

theorem column_shows {d : Data} {pts : List (String → Rat)} {w : Option (List Rat)} (h : d.Shows pts w) {o : String} (ho : o ∈ d.space.obs) :
    ∃ d', column d o = .ok (vals pts o, d') ∧ d'.Shows pts w ∧ d'.space = d.space := by
  obtain ⟨d', h1, h2, h3⟩ := shows_after h (some [o]) (by
    intro x hx
    cases hx
    exact ⟨by simp, by simpa using ho⟩)
  refine ⟨d', ?_, h2, h3⟩
  unfold column
  rw [h1, except_bind_ok]
  dsimp only
  unfold squeeze
  rw [if_pos (by simp)]
  simp only [Option.getD_some, table, List.map_map, except_bind_ok, except_pure]
  rfl

theorem columns_shows {d : Data} {pts : List (String → Rat)} {w : Option (List Rat)} (h : d.Shows pts w) {l : List String}
    (hl : ∀ o ∈ l, o ∈ d.space.obs) : ∃ d', columns d l = .ok (l.map (vals pts), d') ∧ d'.Shows pts w ∧ d'.space = d.space := by
  induction l generalizing d with
  | nil => exact ⟨d, rfl, h, rfl⟩
  | cons o os ih =>
    obtain ⟨d1, h1, h2, h3⟩ := column_shows h (hl o (by simp))
    obtain ⟨d2, h4, h5, h6⟩ := ih h2 (by intro x hx; rw [h3]; exact hl x (by simp [hx]))
    refine ⟨d2, ?_, h5, h6.trans h3⟩
    have hd : columns d (o :: os) = (column d o).bind fun r => (columns r.2 os).bind fun rest => .ok (r.1 :: rest.1, rest.2) := rfl
    rw [hd, h1]
    change ((columns d1 os).bind fun rest => .ok (vals pts o :: rest.1, rest.2)) = _
    rw [h4]
    rfl

theorem valueAxis_eq {d : Data} (hn : d.space.obs.Nodup) {i : ℕ} {o : String} (hi : d.space.obs[i]? = some o) :
    valueAxis d [i] = column d o := by
  obtain ⟨hlt, ho⟩ := List.getElem?_eq_some_iff.1 hi
  have hmem : o ∈ d.space.obs := ho ▸ List.getElem_mem hlt
  have hidx : d.space.obs.idxOf o = i := by rw [← ho]; exact hn.idxOf_getElem i hlt
  obtain ⟨s', hs, hso⟩ := withObs_all (s := d.space) (l := [o]) (by simp) (by simpa using hmem)
  unfold valueAxis column Data.value
  rw [if_neg (by simpa using hlt)]
  simp only [hs, except_bind_ok, hso, mapM_pyIndex (own := d.space.obs) (l := [o]) (by simpa using hmem), List.map_cons, List.map_nil, hidx]
  cases d.ds.value (some [i]) with
  | error e => rfl
  | ok r => rfl

/-- What can be read: `value(obs)`, `data[obs]`, `unstack_x(obs, always_list)` and `value(axis=i)`. -/
inductive Req
  | value (ask : Ask)
  | item (ask : Ask)
  | unstack (ask : Ask) (always : Bool)
  | axis (i : ℕ)

def Req.run (d : Data) : Req → Except Err (Read × Data)
  | .value ask => Frame.value d ask
  | .item ask => getItem d ask
  | .unstack ask b => Frame.unstack d ask b
  | .axis i => do
    let r ← valueAxis d [i]
    return (.column r.1, r.2)

/-- Several reads of the same data, one after the other. -/
def runReqs : Data → List Req → Except Err (List Read)
  | _, [] => .ok []
  | d, q :: qs => do
    let r ← q.run d
    let rest ← runReqs r.2 qs
    return r.1 :: rest

/-- The names that are meant. -/
def Ask.names (obs : List String) : Ask → List String
  | .all => obs
  | .one o => [o]
  | .many l => l

/-- What is asked for exists, and is not nothing. -/
def Req.Good (obs : List String) : Req → Prop
  | .value a => a.names obs ≠ [] ∧ ∀ o ∈ a.names obs, o ∈ obs
  | .item a => a.names obs ≠ [] ∧ ∀ o ∈ a.names obs, o ∈ obs
  | .unstack a always => (∀ o ∈ a.names obs, o ∈ obs) ∧ ¬ (a = .all ∧ obs.length = 1 ∧ always = true)
  | .axis i => i < obs.length

/-- The array with the columns asked for, or the column if only one name was given. -/
def arrayOf (obs : List String) (pts : List (String → Rat)) : Ask → Read
  | .one o => .column (vals pts o)
  | a => .array ⟨(a.names obs).length, pts.map fun p => (a.names obs).map p⟩

/-- What should come back. -/
def Req.answer (obs : List String) (pts : List (String → Rat)) : Req → Read
  | .value a => arrayOf obs pts a
  | .item a => arrayOf obs pts a
  | .unstack a always =>
    match a with
    | .one o => if always then .columns [vals pts o] else .column (vals pts o)
    | .all => if obs.length = 1 ∧ always = false then .column (vals pts (obs.headD "")) else .columns (obs.map (vals pts))
    | .many l => .columns (l.map (vals pts))
  | .axis i => .column (vals pts (obs.getD i ""))

theorem value_shows {d : Data} {pts : List (String → Rat)} {w : Option (List Rat)} (h : d.Shows pts w) (a : Ask)
    (hne : a.names d.space.obs ≠ []) (hin : ∀ o ∈ a.names d.space.obs, o ∈ d.space.obs) :
    ∃ d', Frame.value d a = .ok (arrayOf d.space.obs pts a, d') ∧ d'.Shows pts w ∧ d'.space = d.space := by
  cases a with
  | all =>
    obtain ⟨d', h1, h2, h3⟩ := shows_after h none (by intro x hx; cases hx)
    exact ⟨d', by simp only [Frame.value, h1, except_bind_ok]; rfl, h2, h3⟩
  | one o =>
    obtain ⟨d', h1, h2, h3⟩ := column_shows h (hin o (by simp [Ask.names]))
    exact ⟨d', by simp only [Frame.value, h1, except_bind_ok]; rfl, h2, h3⟩
  | many l =>
    obtain ⟨d', h1, h2, h3⟩ := shows_after h (some l) (by intro x hx; cases hx; exact ⟨hne, hin⟩)
    exact ⟨d', by simp only [Frame.value, h1, except_bind_ok]; rfl, h2, h3⟩

theorem req_shows {d : Data} {pts : List (String → Rat)} {w : Option (List Rat)} (h : d.Shows pts w) (hn : d.space.obs.Nodup) (q : Req)
    (hq : q.Good d.space.obs) : ∃ d', q.run d = .ok (q.answer d.space.obs pts, d') ∧ d'.Shows pts w ∧ d'.space = d.space := by
  cases q with
  | value a => exact value_shows h a hq.1 hq.2
  | item a =>
    obtain ⟨d', h1, h2⟩ := value_shows h a hq.1 hq.2
    exact ⟨d', by simp only [Req.run, getItem, h1]; rfl, h2⟩
  | unstack a always =>
    have hin : ∀ o ∈ a.names d.space.obs, o ∈ d.space.obs := hq.1
    obtain ⟨d', h1, h2⟩ := columns_shows h hin
    refine ⟨d', ?_, h2⟩
    have hk : a.known d.space.obs = true := by
      cases a with
      | all => rfl
      | one o => simpa [Ask.known] using hin o (by simp [Ask.names])
      | many l =>
        simp only [Ask.known, List.all_eq_true, decide_eq_true_eq]
        exact hin
    have hs : a.strs d.space.obs = a.names d.space.obs := by cases a <;> rfl
    simp only [Req.run, Frame.unstack, hk, hs, h1, Bool.not_true, Bool.false_eq_true, if_false, except_bind_ok, except_pure]
    cases a with
    | all =>
      simp only [Ask.noList, Ask.names, Req.answer, decide_eq_true_eq]
      by_cases hlen : d.space.obs.length = 1
      · have ha : always = false := by
          cases always with
          | false => rfl
          | true => exact absurd ⟨rfl, hlen, rfl⟩ hq.2
        rw [if_pos hlen, if_pos ⟨hlen, ha⟩]
        obtain ⟨o, ho⟩ := List.length_eq_one_iff.1 hlen
        rw [ho]
        rfl
      · rw [if_neg hlen, if_neg fun h => hlen h.1]
    | one o => cases always <;> rfl
    | many l => rfl
  | axis i =>
    have hlt : i < d.space.obs.length := hq
    have hi : d.space.obs[i]? = some (d.space.obs[i]) := List.getElem?_eq_getElem hlt
    obtain ⟨d', h1, h2⟩ := column_shows h (List.getElem_mem hlt)
    refine ⟨d', ?_, h2⟩
    simp only [Req.run, valueAxis_eq hn hi, h1, except_bind_ok, Req.answer]
    simp only [List.getD, hi, Option.getD_some]
    rfl

/-- C207, in part: any sequence of reads, by one name or several, of everything, by an axis, as an array or as a list, gives the columns
that were asked for, in the order asked for; `d` shows the events `pts` (see `cut_keeps_exactly_inside`, `columns_cut` for the
constructors).  Missing: several axes, `always_list` without names for data of one observable, and names the data does not have next to names it has, see below. -/
theorem reads_partial {d : Data} {pts : List (String → Rat)} {w : Option (List Rat)} (h : d.Shows pts w) (hn : d.space.obs.Nodup)
    (qs : List Req) (hq : ∀ q ∈ qs, q.Good d.space.obs) : runReqs d qs = .ok (qs.map fun q => q.answer d.space.obs pts) := by
  induction qs generalizing d with
  | nil => rfl
  | cons q qs ih =>
    obtain ⟨d', h1, h2, h3⟩ := req_shows h hn q (hq q (by simp))
    have := ih h2 (by rw [h3]; exact hn) (by intro x hx; rw [h3]; exact hq x (by simp [hx]))
    simp only [runReqs, h1, except_bind_ok, this, h3, List.map_cons, except_pure]

/-- C207: names that the data does not have are refused: one name always, several by `unstack_x`, or if none is known. -/
theorem unknown_refused (d : Data) (o : String) (ho : o ∉ d.space.obs) (l : List String) (hl : o ∈ l) (b : Bool) :
    Frame.value d (.one o) = .error .obsIncompatible ∧ getItem d (.one o) = .error .runtimeError ∧
    Frame.unstack d (.one o) b = .error .obsIncompatible ∧ Frame.unstack d (.many l) b = .error .obsIncompatible := by
  have h1 : Frame.value d (.one o) = .error .obsIncompatible := by
    have : d.space.withObs [o] = .error .obsIncompatible := by simp [DSpace.withObs, ho]
    simp only [Frame.value, column, Data.value, this, except_bind_error]
  refine ⟨h1, by simp only [getItem, h1], by simp [Frame.unstack, Ask.known, ho], ?_⟩
  have : (l.all fun o => decide (o ∈ d.space.obs)) = false := by
    rw [List.all_eq_false]
    exact ⟨o, hl, by simpa using ho⟩
  simp [Frame.unstack, Ask.known, this]

/-- C207 is violated: a name that the data does not have is dropped without notice if there are others, `value(["x", "nope"])`. -/
theorem unknown_dropped_violated :
    let d : Data := ⟨⟨["x", "y"], none⟩, .tensor ⟨2, [[1, 2], [3, 4]]⟩ [0, 1], none⟩
    (Frame.value d (.many ["x", "nope"])).map (·.1) = .ok (.array ⟨1, [[1], [3]]⟩) ∧
    (getItem d (.many ["nope", "y"])).map (·.1) = .ok (.array ⟨1, [[2], [4]]⟩) := by
  decide +kernel

/-- C207 is violated: `value(axis=(0, 1))` raises although both axes exist (the last dimension is squeezed). -/
theorem axes_violated :
    let d : Data := ⟨⟨["x", "y"], none⟩, .tensor ⟨2, [[1, 2], [3, 4]]⟩ [0, 1], none⟩
    valueAxis d [0, 1] = .error .invalidArgument ∧ (valueAxis d [1]).map (·.1) = .ok [2, 4] := by
  decide +kernel

/-- C207 is violated: `unstack_x(always_list=True)` of data with one observable is not a list. -/
theorem always_list_violated :
    let d : Data := ⟨⟨["x"], none⟩, .tensor ⟨1, [[1], [3]]⟩ [0], none⟩
    (Frame.unstack d .all true).map (·.1) = .ok (.column [1, 3]) ∧ (Frame.unstack d (.one "x") true).map (·.1) = .ok (.columns [[1, 3]]) := by
  decide +kernel

/-- a sequence of reads that changes how the data is stored -/
example :
    let d : Data := ⟨⟨["x", "y"], none⟩, .tensor ⟨2, [[1, 2], [3, 4]]⟩ [0, 1], none⟩
    runReqs d [.value (.one "y"), .unstack (.many ["y", "x"]) false, .axis 0, .item .all, .item (.many ["y"]), .unstack (.one "x") true] =
      .ok [.column [2, 4], .columns [[2, 4], [1, 3]], .column [1, 3], .array ⟨2, [[1, 2], [3, 4]]⟩, .array ⟨1, [[2], [4]]⟩, .columns [[1, 3]]] := by
  decide +kernel

/-! ## Tables -/

theorem dictSet_new (t : Table) (o : String) (v : List Rat) (h : o ∉ t.names) : dictSet t o v = t ++ [(o, v)] := by
  induction t with
  | nil => rfl
  | cons e t ih =>
    obtain ⟨k, x⟩ := e
    simp only [Table.names, List.map_cons, List.mem_cons, not_or] at h
    have hd : dictSet ((k, x) :: t) o v = if k = o then (k, v) :: t else (k, x) :: dictSet t o v := rfl
    rw [hd, if_neg (Ne.symm h.1), ih h.2]
    rfl

theorem collect_shows {d : Data} {pts : List (String → Rat)} {w : Option (List Rat)} (h : d.Shows pts w) {l : List String}
    (hl : ∀ o ∈ l, o ∈ d.space.obs) (hn : l.Nodup) (acc : Table) (hacc : ∀ o ∈ l, o ∉ acc.names) :
    ∃ d', collect d l acc = .ok (acc ++ l.map (fun o => (o, vals pts o)), d') ∧ d'.Shows pts w ∧ d'.space = d.space := by
  induction l generalizing d acc with
  | nil => exact ⟨d, by simp [collect], h, rfl⟩
  | cons o os ih =>
    obtain ⟨d1, h1, h2, h3⟩ := column_shows h (hl o (by simp))
    rw [List.nodup_cons] at hn
    obtain ⟨d2, h4, h5, h6⟩ := ih h2 (by intro x hx; rw [h3]; exact hl x (by simp [hx])) hn.2 (acc ++ [(o, vals pts o)]) (by
      intro x hx
      simp only [Table.names, List.map_append, List.map_cons, List.map_nil, List.mem_append, List.mem_singleton, not_or]
      exact ⟨hacc x (by simp [hx]), fun h => hn.1 (h ▸ hx)⟩)
    refine ⟨d2, ?_, h5, h6.trans h3⟩
    have hd : collect d (o :: os) acc = (column d o).bind fun r => collect r.2 os (dictSet acc o r.1) := rfl
    rw [hd, h1]
    change collect d1 os (dictSet acc o (vals pts o)) = _
    rw [dictSet_new _ _ _ (hacc o (by simp)), h4]
    simp

theorem dictGet_map {l : List String} {f : String → List Rat} {rest : Table} {o : String} (h : o ∈ l) :
    dictGet (l.map (fun o => (o, f o)) ++ rest) o = some (f o) := by
  induction l with
  | nil => cases h
  | cons a l ih =>
    unfold dictGet at ih ⊢
    rw [List.map_cons, List.cons_append, List.find?_cons]
    by_cases ha : a = o
    · subst ha
      simp
    · simp only [decide_eq_true_eq, ha, decide_false]
      exact ih (by simpa [Ne.symm ha] using h)

theorem dictGet_last {l : List String} {f : String → List Rat} {o : String} {v : List Rat} (h : o ∉ l) :
    dictGet (l.map (fun o => (o, f o)) ++ [(o, v)]) o = some v := by
  induction l with
  | nil => simp [dictGet]
  | cons a l ih =>
    simp only [List.mem_cons, not_or] at h
    unfold dictGet at ih ⊢
    rw [List.map_cons, List.cons_append, List.find?_cons]
    simp only [Ne.symm h.1, decide_false]
    exact ih h.2

theorem mem_names {t : Table} {o : String} {v : List Rat} (h : dictGet t o = some v) : o ∈ t.names := by
  unfold dictGet at h
  obtain ⟨e, he, -⟩ := Option.map_eq_some_iff.1 h
  have h1 := List.find?_some he
  have h2 := List.mem_of_find?_eq_some he
  simp only [decide_eq_true_eq] at h1
  exact List.mem_map.2 ⟨e, h2, h1⟩

theorem get_of_names {t : Table} {o : String} (h : o ∈ t.names) : ∃ v, dictGet t o = some v := by
  unfold dictGet
  cases hf : t.find? (fun p => decide (p.1 = o)) with
  | some e => exact ⟨e.2, rfl⟩
  | none =>
    obtain ⟨e, he, rfl⟩ := List.mem_map.1 h
    have := List.find?_eq_none.1 hf e he
    simp at this

theorem withObs_self {s : DSpace} (hs : s.Proper) : s.withObs s.obs = .ok s := by
  obtain ⟨o, os, ho⟩ := List.exists_cons_of_ne_nil hs.1
  unfold DSpace.withObs
  rw [if_neg (by simp [ho])]
  have hk : s.obs.filter (· ∈ s.obs) = s.obs := List.filter_eq_self.2 (by simp)
  simp only [hk]
  congr 1
  obtain ⟨obs, lims⟩ := s
  simp only [DSpace.mk.injEq, true_and]
  cases lims with
  | none => rfl
  | some ls =>
    simp only [Option.map_some, Option.some.injEq]
    conv_rhs => rw [← List.map_id ls]
    apply List.map_congr_left
    intro b hb
    have hlen := hs.2.2 ls rfl b hb
    apply List.ext_getElem
    · simpa using hlen.symm
    · intro i h1 h2
      simp only [List.length_map] at h1
      have := hs.2.1.idxOf_getElem i h1
      simp only [id_eq] at h2
      simp [this, h2]

/-- The weights that are meant by the argument. -/
def WArg.Means (df : Table) : WArg → Option (List Rat) → Prop
  | .none, w => w = dictGet df ""
  | .column c, w => ∃ l, dictGet df c = some l ∧ w = some l
  | .array l, w => w = some l

/-- The column of the weights, if they are a column. -/
def WArg.col : WArg → Option String
  | .none => some ""
  | .column c => some c
  | .array _ => Option.none

/-- Every event that has a value in every column inside of the limits is inside of the space. -/
theorem perObs_eq {s : DSpace} (hs : s.Proper) (h1 : s.Single ∨ s.obs.length = 1) : s.containsPerObs = s.contains := by
  funext p
  rw [Bool.eq_iff_iff]
  refine ⟨fun h => ?_, perObs_of_contains hs.2.2 p⟩
  rcases h1 with h1 | h1
  · exact contains_of_perObs hs.2.1 h1 p h
  · obtain ⟨o, ho⟩ := List.length_eq_one_iff.1 h1
    unfold DSpace.containsPerObs at h
    unfold DSpace.contains
    cases hl : s.lims with
    | none => rfl
    | some ls =>
      simp only [hl, ho, List.all_cons, List.all_nil, Bool.and_true, List.any_eq_true] at h ⊢
      obtain ⟨b, hb, h⟩ := h
      refine ⟨b, hb, ?_⟩
      have := hs.2.2 ls hl b hb
      rw [h1] at this
      obtain ⟨x, rfl⟩ := List.length_eq_one_iff.1 this
      simpa using h

theorem fromPandas_perObs (df : Table) (s : DSpace) (hs : s.Proper) (pts : List (String → Rat))
    (hm : ∀ o ∈ s.obs, dictGet df o = some (vals pts o)) (wa : WArg) (w : Option (List Rat)) (hwa : wa.Means df w) (hw : Weighted pts w)
    (hc : ∀ c, wa.col = some c → c ∉ s.obs) :
    ∃ d, fromPandas df (some s) wa false = .ok d ∧ d.space = s ∧
      d.Shows (pts.filter s.containsPerObs) (keptWeights s.containsPerObs pts w) := by
  obtain ⟨d, h1, h2, h3⟩ := columns_cut s hs pts w hw df hm
  refine ⟨d, ?_, h2, h3⟩
  have hany : (s.obs.any fun o => decide (o ∉ df.names)) = false := by
    rw [List.any_eq_false]
    intro o ho
    simpa using mem_names (hm o ho)
  have hcol : ∀ c l, c ∉ s.obs → dictGet df c = some l → w = some l → withColumn df s c false = .ok d := by
    intro c l hc hl hwl
    have hf : (s.obs.filter fun o => decide (o ≠ c)) = s.obs := List.filter_eq_self.2 (by
      intro o ho
      simp only [ne_eq, decide_not, Bool.not_eq_true', decide_eq_false_iff_not]
      exact fun h => hc (h ▸ ho))
    unfold withColumn
    rw [hf, withObs_self hs, except_bind_ok, hl, ← hwl, h1]
  unfold fromPandas
  simp only [Option.getD_some, hany, Bool.false_eq_true, if_false]
  cases wa with
  | array l => cases hwa; exact h1
  | none =>
    by_cases hd : "" ∈ df.names
    · obtain ⟨l, hl⟩ := get_of_names hd
      rw [if_pos hd]
      have hw' : w = some l := by rw [← hl]; exact hwa
      exact hcol "" l (hc "" rfl) hl hw'
    · rw [if_neg hd]
      have hw' : w = none := by
        have : w = dictGet df "" := hwa
        rw [this]
        cases hg : dictGet df "" with
        | none => rfl
        | some l => exact absurd (mem_names hg) hd
      rw [← hw']
      exact h1
  | column c =>
    obtain ⟨l, hl, hwl⟩ := hwa
    dsimp only
    rw [if_pos (mem_names hl)]
    exact hcol c l (hc c rfl) hl hwl

/-- C205, in part: data from a table with further columns, the columns in any order, has the observables asked for, exactly the events
inside of the limits, and the weights of the column named, of the column `""` if no weights are given, or of the array.  Missing: weights
from a column that is also an observable, several limits in several dimensions (C18), a `Series` without `obs`. -/
theorem from_pandas_partial (df : Table) (s : DSpace) (hs : s.Proper) (h1 : s.Single ∨ s.obs.length = 1) (pts : List (String → Rat))
    (hm : ∀ o ∈ s.obs, dictGet df o = some (vals pts o)) (wa : WArg) (w : Option (List Rat)) (hwa : wa.Means df w) (hw : Weighted pts w)
    (hc : ∀ c, wa.col = some c → c ∉ s.obs) :
    ∃ d, fromPandas df (some s) wa false = .ok d ∧ d.space = s ∧ d.Shows (pts.filter s.contains) (keptWeights s.contains pts w) := by
  have := fromPandas_perObs df s hs pts hm wa w hwa hw hc
  rwa [perObs_eq hs h1] at this

/-- C205: columns and weights that the table does not have are refused. -/
theorem from_pandas_refused (df : Table) (s : DSpace) (o c : String) (wa : WArg) (g : Bool) :
    (o ∈ s.obs → o ∉ df.names → fromPandas df (some s) wa g = .error .valueError) ∧
    (c ∉ df.names → ∃ e, fromPandas df (some s) (.column c) g = .error e) := by
  constructor
  · intro h1 h2
    unfold fromPandas
    rw [if_pos]
    simp only [Option.getD_some, List.any_eq_true, decide_eq_true_eq]
    exact ⟨o, h1, h2⟩
  · intro h
    unfold fromPandas
    dsimp only
    rw [if_neg h]
    split <;> exact ⟨_, rfl⟩

theorem names_cut {df : Table} (c : String) : (⟨df.names, none⟩ : DSpace).withObs (df.names.filter fun o => decide (o ≠ c)) =
    if df.names.filter (fun o => decide (o ≠ c)) = [] then .error .obsIncompatible
    else .ok ⟨df.names.filter fun o => decide (o ≠ c), none⟩ := by
  by_cases h : df.names.filter (fun o => decide (o ≠ c)) = []
  · rw [if_pos h, h]
    rfl
  · rw [if_neg h]
    unfold DSpace.withObs
    have hany : (df.names.filter fun o => decide (o ≠ c)).any (fun o => decide (o ∈ df.names)) = true := by
      obtain ⟨a, as, ha⟩ := List.exists_cons_of_ne_nil h
      rw [List.any_eq_true]
      exact ⟨a, by rw [ha]; simp, by simpa using (List.mem_filter.1 (ha ▸ List.mem_cons_self : a ∈ df.names.filter _)).1⟩
    dsimp only
    rw [if_neg (by simp only [hany, not_true, not_false_eq_true])]
    have hk : (df.names.filter fun o => decide (o ≠ c)).filter (fun o => decide (o ∈ df.names)) = df.names.filter fun o => decide (o ≠ c) :=
      List.filter_eq_self.2 (by intro a ha; simpa using (List.mem_filter.1 ha).1)
    rw [hk]
    rfl

/-- C205: without `obs`, the observables are all columns but the one of the weights, in their order, and all events are kept. -/
theorem from_pandas_all_columns (df : Table) (hn : df.names.Nodup) (pts : List (String → Rat))
    (wa : WArg) (w : Option (List Rat)) (hwa : wa.Means df w) (hw : Weighted pts w)
    (hm : ∀ o ∈ df.names, some o ≠ wa.col → dictGet df o = some (vals pts o)) (hne : ∃ o ∈ df.names, some o ≠ wa.col) :
    ∃ d, fromPandas df none wa false = .ok d ∧ d.space = ⟨df.names.filter (fun o => decide (some o ≠ wa.col)), none⟩ ∧ d.Shows pts w := by
  obtain ⟨o0, ho0, hoc⟩ := hne
  have main : ∀ f : String → Bool, (∀ o ∈ df.names, f o = true → some o ≠ wa.col) → f o0 = true →
      ∃ d, Data.fromMapping ⟨df.names.filter f, none⟩ df w false = .ok d ∧ d.space = ⟨df.names.filter f, none⟩ ∧ d.Shows pts w := by
    intro f hf hf0
    have hp : (⟨df.names.filter f, none⟩ : DSpace).Proper :=
      ⟨List.ne_nil_of_mem (List.mem_filter.2 ⟨ho0, hf0⟩), hn.filter _, by intro ls h; cases h⟩
    obtain ⟨d, e1, e2, e3⟩ := columns_cut _ hp pts w hw df (by
      intro o ho
      exact hm o (List.mem_filter.1 ho).1 (hf o (List.mem_filter.1 ho).1 (List.mem_filter.1 ho).2))
    have hall : ∀ p ∈ pts, (⟨df.names.filter f, none⟩ : DSpace).containsPerObs p = true := by
      intro p _
      exact perObs_of_contains hp.2.2 p rfl
    rw [filter_all hall, keptWeights_all hw hall] at e3
    exact ⟨d, e1, e2, e3⟩
  have hany : (df.names.any fun o => decide (o ∉ df.names)) = false := by
    rw [List.any_eq_false]
    intro o ho
    simpa using ho
  have hcol : ∀ c l, wa.col = some c → dictGet df c = some l → w = some l →
      ∃ d, withColumn df ⟨df.names, none⟩ c false = .ok d ∧ d.space = ⟨df.names.filter (fun o => decide (some o ≠ wa.col)), none⟩ ∧
        d.Shows pts w := by
    intro c l hwc hl hwl
    have hfe : (fun o => decide (some o ≠ wa.col)) = fun o => decide (o ≠ c) := by
      funext o
      rw [hwc]
      simp
    obtain ⟨d, e1, e2⟩ := main (fun o => decide (o ≠ c)) (by
      intro o _ h
      rw [hwc]
      simpa using h) (by
      rw [hwc] at hoc
      simpa using hoc)
    refine ⟨d, ?_, hfe ▸ e2⟩
    unfold withColumn
    dsimp only
    rw [names_cut, if_neg, except_bind_ok, hl, ← hwl, e1]
    apply List.ne_nil_of_mem (a := o0)
    rw [List.mem_filter]
    refine ⟨ho0, ?_⟩
    rw [hwc] at hoc
    simpa using hoc
  have hnocol : (∀ o ∈ df.names, some o ≠ wa.col) →
      ∃ d, Data.fromMapping ⟨df.names, none⟩ df w false = .ok d ∧ d.space = ⟨df.names.filter (fun o => decide (some o ≠ wa.col)), none⟩ ∧
        d.Shows pts w := by
    intro h
    have hfe : df.names.filter (fun o => decide (some o ≠ wa.col)) = df.names := List.filter_eq_self.2 (by
      intro o ho
      simpa using h o ho)
    have := main (fun o => decide (some o ≠ wa.col)) (by intro o _ h; simpa using h) (by simpa using hoc)
    rw [hfe] at this ⊢
    exact this
  unfold fromPandas
  simp only [Option.getD_none, hany, Bool.false_eq_true, if_false]
  cases wa with
  | array l =>
    cases hwa
    exact hnocol (by intro o _ h; cases h)
  | none =>
    by_cases hd : "" ∈ df.names
    · obtain ⟨l, hl⟩ := get_of_names hd
      rw [if_pos hd]
      have hw' : w = some l := by rw [← hl]; exact hwa
      exact hcol "" l rfl hl hw'
    · rw [if_neg hd]
      have hw' : w = none := by
        have : w = dictGet df "" := hwa
        rw [this]
        cases hg : dictGet df "" with
        | none => rfl
        | some l => exact absurd (mem_names hg) hd
      subst hw'
      exact hnocol (by
        intro o ho h
        have : o = "" := Option.some.inj h
        exact hd (this ▸ ho))
  | column c =>
    obtain ⟨l, hl, hwl⟩ := hwa
    dsimp only
    rw [if_pos (mem_names hl)]
    exact hcol c l rfl hl hwl

/-- C205 is violated: an observable asked for that is also the column of the weights is dropped without notice. -/
theorem weights_observable_violated :
    (fromPandas [("x", [1, 2]), ("w", [3, 4])] (some ⟨["x", "w"], none⟩) (.column "w") false).map (fun d => d.space.obs) = .ok ["x"] ∧
    (fromPandas [("x", [1, 2]), ("", [3, 4])] (some ⟨["x", ""], none⟩) .none false).map (fun d => (d.space.obs, d.weights)) =
      .ok (["x"], some [3, 4]) := by
  decide +kernel

/-- C205 is violated: a `pd.Series` needs `obs`. -/
theorem series_violated (name : String) (col : List Rat) (w : WArg) (g : Bool) : fromSeries name col none w g = .error .attributeError := rfl

/-- a table with further columns, limits and a column of weights -/
example :
    let df : Table := [("z", [0, 0, 0]), ("w", [1, 2, 3]), ("y", [4, 5, 6]), ("x", [1, 20, 3])]
    (fromPandas df (some ⟨["x", "y"], some [[(0, 10), (0, 10)]]⟩) (.column "w") false).map (fun d => (d.space.obs, d.weights)) =
      .ok (["x", "y"], some [1, 3]) ∧
    (fromPandas df none (.column "w") false).map (fun d => (d.space.obs, d.weights)) = .ok (["z", "y", "x"], some [1, 2, 3]) := by
  decide +kernel

/-! ## There and back -/

theorem frame_ok {t : Table} {n : ℕ} (h : ∀ c ∈ t, c.2.length = n) : frame t = .ok t := by
  unfold frame
  rw [if_pos]
  rw [List.all_eq_true]
  intro c hc
  cases t with
  | nil => cases hc
  | cons a t =>
    apply decide_eq_true
    exact (h c hc).trans (h a (by simp)).symm

/-- C204, in part: the table from `to_pandas` has the columns asked for and the weights, and data made from it again with the same space
has the same events and weights.  `wn` is the name of the column of the weights, `""` if none is given.  Missing: a name of the weights
that is an observable. -/
theorem pandas_roundtrip_partial {d : Data} {pts : List (String → Rat)} {w : Option (List Rat)} (h : d.Shows pts w) (hw : Weighted pts w)
    (hp : d.space.Proper) (hin : ∀ p ∈ pts, d.space.contains p = true) (wn : Option String) (hwn : wn.getD "" ∉ d.space.obs)
    (h0 : "" ∉ d.space.obs) :
    ∃ t d' d2, toPandas d none wn = .ok (t, d') ∧ d'.Shows pts w ∧
      t = d.space.obs.map (fun o => (o, vals pts o)) ++ (w.map fun l => (wn.getD "", l)).toList ∧
      fromPandas t (some d.space) (if w.isSome then wn.elim .none .column else .none) false = .ok d2 ∧ d2.space = d.space ∧ d2.Shows pts w := by
  obtain ⟨d', h1, h2, h3⟩ := collect_shows h (l := d.space.obs) (fun o ho => ho) hp.2.1 [] (by simp [Table.names])
  rw [List.nil_append] at h1
  have hperf : ∀ p ∈ pts, d.space.containsPerObs p = true := fun p hpp => perObs_of_contains hp.2.2 p (hin p hpp)
  have finish : ∀ t wa, wa.Means t w → (∀ o ∈ d.space.obs, dictGet t o = some (vals pts o)) → (∀ c, wa.col = some c → c ∉ d.space.obs) →
      ∃ d2, fromPandas t (some d.space) wa false = .ok d2 ∧ d2.space = d.space ∧ d2.Shows pts w := by
    intro t wa hwa hm hc
    have := fromPandas_perObs t d.space hp pts hm wa w hwa hw hc
    rwa [filter_all hperf, keptWeights_all hw hperf] at this
  have hnames : ∀ rest : Table, (Table.names (d.space.obs.map (fun o => (o, vals pts o)) ++ rest)) = d.space.obs ++ rest.names := by
    intro rest
    simp [Table.names, Function.comp_def]
  cases hww : w with
  | none =>
    subst hww
    obtain ⟨d2, e1, e2⟩ := finish (d.space.obs.map (fun o => (o, vals pts o)) ++ []) .none (by
        change none = dictGet _ ""
        cases hg : dictGet (d.space.obs.map (fun o => (o, vals pts o)) ++ []) "" with
        | none => rfl
        | some l =>
          have := mem_names hg
          rw [hnames] at this
          simp only [Table.names, List.map_nil, List.append_nil] at this
          exact absurd this h0) (fun o ho => dictGet_map ho) (by
        intro c hc
        cases hc
        exact h0)
    refine ⟨_, d', d2, ?_, h2, rfl, ?_, e2⟩
    · unfold toPandas
      simp only [Option.getD_none, h1, except_bind_ok, h.1]
      rw [frame_ok (n := pts.length) (by simp [vals])]
      simp
    · simpa using e1
  | some l =>
    subst hww
    have hlast : dictGet (d.space.obs.map (fun o => (o, vals pts o)) ++ [(wn.getD "", l)]) (wn.getD "") = some l := dictGet_last hwn
    obtain ⟨d2, e1, e2⟩ := finish (d.space.obs.map (fun o => (o, vals pts o)) ++ [(wn.getD "", l)]) (wn.elim .none .column) (by
        cases wn with
        | none => exact hlast.symm
        | some c => exact ⟨l, hlast, rfl⟩) (fun o ho => dictGet_map ho) (by
        intro c hc
        cases wn with
        | none => cases hc; exact h0
        | some c' => cases hc; exact hwn)
    refine ⟨_, d', d2, ?_, h2, rfl, ?_, e2⟩
    · unfold toPandas
      simp only [Option.getD_none, h1, except_bind_ok, h.1]
      have hnew := dictSet_new (d.space.obs.map (fun o => (o, vals pts o))) (wn.getD "") l (by
        have := hnames []
        rw [List.append_nil] at this
        rw [this]
        simpa [Table.names] using hwn)
      rw [hnew, frame_ok (n := pts.length)]
      · rfl
      · intro c hc
        rcases List.mem_append.1 hc with hc | hc
        · obtain ⟨o, _, rfl⟩ := List.mem_map.1 hc
          simp [vals]
        · rw [List.mem_singleton.1 hc]
          exact hw l rfl
    · simpa using e1

/-- C204: a table of some of the observables, in the order asked for. -/
theorem pandas_columns {d : Data} {pts : List (String → Rat)} (h : d.Shows pts none) (l : List String) (hl : ∀ o ∈ l, o ∈ d.space.obs)
    (hn : l.Nodup) (wn : Option String) : ∃ d', toPandas d (some l) wn = .ok (l.map (fun o => (o, vals pts o)), d') ∧ d'.Shows pts none := by
  obtain ⟨d', h1, h2, h3⟩ := collect_shows h hl hn [] (by simp [Table.names])
  refine ⟨d', ?_, h2⟩
  unfold toPandas
  simp only [Option.getD_some, h1, except_bind_ok, h.1, List.nil_append]
  rw [frame_ok (n := pts.length) (by simp [vals])]
  rfl

/-- C204 is violated: with the weights under the name of an observable, the table has the weights in place of the observable. -/
theorem weightsname_violated :
    let d : Data := ⟨⟨["x", "y"], none⟩, .columns [[1, 2], [3, 4]], some [5, 6]⟩
    (toPandas d none (some "x")).map (·.1) = .ok [("x", [5, 6]), ("y", [3, 4])] := by
  decide +kernel

/-- with weights -/
example :
    let d : Data := ⟨⟨["x", "y"], some [[(0, 10), (0, 10)]]⟩, .columns [[1, 2], [3, 4]], some [5, 6]⟩
    (toPandas d none none).map (·.1) = .ok [("x", [1, 2]), ("y", [3, 4]), ("", [5, 6])] ∧
    ((toPandas d none none).bind fun r => fromPandas r.1 (some d.space) .none false) = .ok d := by
  decide +kernel

/-! ## Files -/

theorem stack_vals {l : List String} (hne : l ≠ []) (pts : List (String → Rat)) : stackCols (l.map (vals pts)) = .ok ⟨l.length, table l pts⟩ := by
  obtain ⟨o, os, rfl⟩ := List.exists_cons_of_ne_nil hne
  have hd : ∀ c (cs : List (List Rat)), stackCols (c :: cs) = if (c :: cs).all (fun c' => decide (c'.length = c.length)) then
      .ok ⟨(c :: cs).length, (List.range c.length).map (fun i => (c :: cs).map (fun c' => c'.getD i 0))⟩ else .error .invalidArgument :=
    fun _ _ => rfl
  rw [List.map_cons, hd, if_pos]
  · congr 2
    · simp
    · apply List.ext_getElem
      · simp [vals, table]
      · intro i h1 h2
        have h3 : i < pts.length := by simpa [table] using h2
        simp [vals, table, h3]
  · simp [vals]

/-- C206, in part: data from a file with `obs` has for every observable the values of the branch that `obs_alias` names for it, or of the
branch with its name, for exactly the events inside of the limits, with the weights from the branch or the array given.  Missing:
`obs_alias` without `obs`. -/
theorem from_root_partial (tree : Table) (s : DSpace) (hs : s.Proper) (aliases : Option (List (String × String)))
    (pts : List (String → Rat)) (hm : ∀ o ∈ s.obs, dictGet tree ((dictGet (aliases.getD []) o).getD o) = some (vals pts o))
    (wa : WArg) (w : Option (List Rat))
    (hwa : match wa with
      | .none => w = none
      | .column c => ∃ l, dictGet tree c = some l ∧ w = some l
      | .array l => w = some l) (hw : Weighted pts w) :
    ∃ d, fromRoot tree (some s) aliases wa = .ok d ∧ d.space = s ∧ d.Shows (pts.filter s.contains) (keptWeights s.contains pts w) := by
  obtain ⟨d, h1, h2⟩ := cut_keeps_exactly_inside s hs pts w hw
  refine ⟨d, ?_, h2⟩
  have hb : branchesOf tree (s.obs.map fun o => (dictGet (aliases.getD []) o).getD o) = .ok ⟨s.obs.length, table s.obs pts⟩ := by
    unfold branchesOf
    have : (s.obs.map fun o => (dictGet (aliases.getD []) o).getD o).mapM
        (fun b => (dictGet tree b).elim (.error .keyError) (Except.ok (ε := Err))) =
        .ok ((s.obs.map fun o => (dictGet (aliases.getD []) o).getD o).map fun b => (dictGet tree b).getD []) := by
      apply mapM_ok_of_forall
      intro b hb
      obtain ⟨o, ho, rfl⟩ := List.mem_map.1 hb
      simp [hm o ho]
    rw [this, except_bind_ok, List.map_map]
    have : s.obs.map ((fun b => (dictGet tree b).getD []) ∘ fun o => (dictGet (aliases.getD []) o).getD o) = s.obs.map (vals pts) := by
      apply List.map_congr_left
      intro o ho
      simp [hm o ho]
    rw [this, stack_vals hs.1]
  unfold fromRoot
  dsimp only
  simp only [Option.getD_some, hb, except_bind_ok]
  cases wa with
  | none => cases hwa; exact h1
  | array l => cases hwa; exact h1
  | column c =>
    obtain ⟨l, hl, rfl⟩ := hwa
    simp only [hl, Option.elim_some, except_bind_ok]
    exact h1

/-- C206: a branch that the file does not have is refused. -/
theorem from_root_missing (tree : Table) (s : DSpace) (aliases : Option (List (String × String))) (wa : WArg) (o : String) (ho : o ∈ s.obs)
    (hm : dictGet tree ((dictGet (aliases.getD []) o).getD o) = none) : ∃ e, fromRoot tree (some s) aliases wa = .error e := by
  have hb : ∃ e, branchesOf tree (s.obs.map fun o => (dictGet (aliases.getD []) o).getD o) = .error e := by
    cases hr : branchesOf tree (s.obs.map fun o => (dictGet (aliases.getD []) o).getD o) with
    | error e => exact ⟨e, rfl⟩
    | ok t =>
      unfold branchesOf at hr
      obtain ⟨cols, h1, -⟩ := bind_eq_ok.1 hr
      have h2 := (mapM_ok_iff _ _ _).1 h1
      have h3 : (Except.error .keyError : Except Err (List Rat)) ∈ cols.map Except.ok := by
        rw [← h2, List.map_map, List.mem_map]
        exact ⟨o, ho, by simp [hm]⟩
      obtain ⟨x, _, hx⟩ := List.mem_map.1 h3
      cases hx
  obtain ⟨e, he⟩ := hb
  refine ⟨e, ?_⟩
  unfold fromRoot
  dsimp only
  simp only [Option.getD_some, he, except_bind_error]

/-- C206 is violated: with `obs_alias` alone, the observables have the names of the branches and not the names given for them, and if one
of them is also a name given, it has the values of another branch. -/
theorem alias_alone_violated :
    let tree : Table := [("b", [1, 2]), ("c", [3, 4])]
    (fromRoot tree none (some [("x", "b")]) .none).map (fun d => (d.space.obs, d.ds)) = .ok (["b"], .tensor ⟨1, [[1], [2]]⟩ [0]) ∧
    (fromRoot tree none (some [("x", "b"), ("b", "c")]) .none).map (fun d => (d.space.obs, d.ds)) =
      .ok (["b", "c"], .tensor ⟨2, [[3, 3], [4, 4]]⟩ [0, 1]) := by
  decide +kernel

/-- with names for the branches, limits, and weights from a branch -/
example :
    let tree : Table := [("b", [1, 20, 2]), ("c", [3, 5, 4]), ("w", [7, 8, 9])]
    (fromRoot tree (some ⟨["x", "c"], some [[(0, 10), (0, 10)]]⟩) (some [("x", "b")]) (.column "w")).map (fun d => (d.space.obs, d.ds, d.weights)) =
      .ok (["x", "c"], .tensor ⟨2, [[1, 3], [2, 4]]⟩ [0, 1], some [7, 9]) := by
  decide +kernel

end Zfit.Frame
