import Verif.Coord.Model
import Verif.Common.Except

namespace Zfit.Coord

open Zfit

variable {α β : Type}

theorem reorderIndices_ok_of_subset [DecidableEq α] {old new : List α} (h : ∀ x ∈ new, x ∈ old) :
    reorderIndices old new = .ok (new.map old.idxOf) := by
  apply mapM_ok_of_forall
  intro x hx
  simp [pyIndex, h x hx]

theorem getElem?_idxOf_mem [DecidableEq α] {l : List α} {x : α} (h : x ∈ l) :
    l[l.idxOf x]? = some x := by
  have := List.idxOf_lt_length_iff.2 h
  rw [List.getElem?_eq_getElem this]
  simp

theorem gather_idxOf [DecidableEq α] {own req : List α} (h : ∀ x ∈ req, x ∈ own) :
    (req.map own.idxOf).mapM (pyGet own) = .ok req := by
  rw [mapM_pyGet_ok, List.map_map]
  apply List.map_congr_left
  intro x hx
  exact getElem?_idxOf_mem (h x hx)

theorem mapM_pyGet_ok_of_lt {l : List α} {idx : List Nat} (h : ∀ i ∈ idx, i < l.length) :
    ∃ r, idx.mapM (pyGet l) = .ok r := by
  induction idx with
  | nil => exact ⟨[], rfl⟩
  | cons i idx ih =>
    obtain ⟨r, hr⟩ := ih (fun j hj => h j (List.mem_cons_of_mem _ hj))
    have hi := h i List.mem_cons_self
    refine ⟨l[i] :: r, ?_⟩
    rw [List.mapM_cons, hr]
    simp [pyGet, List.getElem?_eq_getElem hi]

theorem make_some_some {o : List String} {a : List Int} {c : Coords}
    (h : Coords.make (some o) (some a) = .ok c) : o.length = a.length ∧ c = ⟨some o, some a⟩ := by
  unfold Coords.make at h
  split at h <;> simp_all
  split at h <;> simp_all
  split at h <;> simp_all

theorem falsy_some {l : List α} : falsy (some l) = l.isEmpty := by cases l <;> rfl

/-- The index list extracted from a successful `with_obs` on an object with both coordinates. -/
theorem withObs_ok {o : List String} {a : List Int} {l : List String} {sup sub : Bool} {c' : Coords}
    (h : Coords.withObs ⟨some o, some a⟩ (some l) sup sub = .ok c') :
    ∃ a', ((l.filter (· ∈ o)).map o.idxOf).map (a[·]?) = a'.map some ∧
      c' = ⟨some (l.filter (· ∈ o)), some a'⟩ ∧ (l.filter (· ∈ o)).length = a'.length ∧
      (sub = false → ∀ x ∈ o, x ∈ l) := by
  unfold Coords.withObs at h
  simp only at h
  split at h
  · simp at h
  · split at h
    · simp at h
    · split at h
      · simp at h
      · rename_i hsub
        have hmem : ∀ x ∈ l.filter (· ∈ o), x ∈ o := by
          intro x hx
          simpa using (List.mem_filter.1 hx).2
        simp only [Coords.getReorderIndices, reorderIndices_ok_of_subset hmem, except_bind_ok,
          reorderTuple, gather_idxOf hmem, bind_eq_ok, except_pure, Except.ok.injEq] at h
        obtain ⟨w, ⟨a', ha', rfl⟩, hmk⟩ := h
        obtain ⟨hlen, rfl⟩ := make_some_some hmk
        refine ⟨a', mapM_pyGet_ok.1 ha', rfl, hlen, ?_⟩
        intro hs x hx
        simp only [hs, Bool.false_eq_true, not_false_eq_true, true_and, List.any_eq_true,
          decide_eq_true_eq, not_exists, not_and, Decidable.not_not] at hsub
        exact hsub x hx

theorem withAxes_ok {o : List String} {a : List Int} {l : List Int} {sup sub : Bool} {c' : Coords}
    (h : Coords.withAxes ⟨some o, some a⟩ (some l) sup sub = .ok c') :
    ∃ o', ((l.filter (· ∈ a)).map a.idxOf).map (o[·]?) = o'.map some ∧
      c' = ⟨some o', some (l.filter (· ∈ a))⟩ ∧ o'.length = (l.filter (· ∈ a)).length ∧
      (sub = false → ∀ x ∈ a, x ∈ l) := by
  unfold Coords.withAxes at h
  simp only at h
  split at h
  · simp at h
  · split at h
    · simp at h
    · split at h
      · simp at h
      · rename_i hsub
        have hmem : ∀ x ∈ l.filter (· ∈ a), x ∈ a := by
          intro x hx
          simpa using (List.mem_filter.1 hx).2
        simp only [Coords.getReorderIndices, reorderIndices_ok_of_subset hmem, except_bind_ok,
          reorderTuple, gather_idxOf hmem, bind_eq_ok, except_pure, Except.ok.injEq] at h
        obtain ⟨w, ⟨o', ho', rfl⟩, hmk⟩ := h
        obtain ⟨hlen, rfl⟩ := make_some_some hmk
        refine ⟨o', mapM_pyGet_ok.1 ho', rfl, hlen, ?_⟩
        intro hs x hx
        simp only [hs, Bool.false_eq_true, not_false_eq_true, true_and, List.any_eq_true,
          decide_eq_true_eq, not_exists, not_and, Decidable.not_not] at hsub
        exact hsub x hx

theorem zip_gather {γ : Type} {o o' : List β} {a a' : List γ} {idx : List Nat}
    (ho : idx.map (o[·]?) = o'.map some) (ha : idx.map (a[·]?) = a'.map some) :
    idx.map ((o.zip a)[·]?) = (o'.zip a').map some := by
  induction idx generalizing o' a' with
  | nil => cases o' <;> cases a' <;> simp_all
  | cons i idx ih =>
    cases o' with
    | nil => simp at ho
    | cons x o' =>
      cases a' with
      | nil => simp at ha
      | cons y a' =>
        simp only [List.map_cons, List.cons.injEq, List.zip_cons_cons] at ho ha ⊢
        refine ⟨?_, ih ho.2 ha.2⟩
        rw [List.getElem?_zip_eq_some]
        exact ⟨ho.1, ha.1⟩

theorem mem_of_gather {l l' : List β} {idx : List Nat} (h : idx.map (l[·]?) = l'.map some) :
    ∀ p ∈ l', p ∈ l := by
  intro p hp
  have : some p ∈ l'.map some := List.mem_map_of_mem hp
  rw [← h] at this
  obtain ⟨i, _, hi⟩ := List.mem_map.1 this
  exact List.mem_of_getElem? hi

/-- The pairs (observable, axis) an object currently holds. -/
def pairsOf (c : Coords) : List (String × Int) :=
  match c.obs, c.axes with
  | some o, some a => o.zip a
  | _, _ => []

theorem apply_pairs {o : List String} {a : List Int} {r : Req} {c' : Coords}
    (h : Coords.apply ⟨some o, some a⟩ r = .ok c') :
    ∃ o' a', c' = ⟨some o', some a'⟩ ∧ o'.length = a'.length ∧ ∀ p ∈ o'.zip a', p ∈ o.zip a := by
  cases r with
  | obs l sup sub =>
    obtain ⟨a', ha', rfl, hlen, -⟩ := withObs_ok h
    refine ⟨_, a', rfl, hlen, ?_⟩
    have hmem : ∀ x ∈ l.filter (· ∈ o), x ∈ o := by
      intro x hx; simpa using (List.mem_filter.1 hx).2
    exact mem_of_gather (zip_gather (mapM_pyGet_ok.1 (gather_idxOf hmem)) ha')
  | axes l sup sub =>
    obtain ⟨o', ho', rfl, hlen, -⟩ := withAxes_ok h
    refine ⟨o', _, rfl, hlen, ?_⟩
    have hmem : ∀ x ∈ l.filter (· ∈ a), x ∈ a := by
      intro x hx; simpa using (List.mem_filter.1 hx).2
    exact mem_of_gather (zip_gather ho' (mapM_pyGet_ok.1 (gather_idxOf hmem)))

theorem applyAll_append (c : Coords) (rs rs' : List Req) :
    c.applyAll (rs ++ rs') = (c.applyAll rs >>= fun d => d.applyAll rs') := by
  induction rs generalizing c with
  | nil => simp [Coords.applyAll]
  | cons r rs ih =>
    simp only [List.cons_append, Coords.applyAll]
    cases c.apply r <;> simp [ih]

theorem gather_complete {l l' : List β} {idx : List Nat} (h : idx.map (l[·]?) = l'.map some)
    {i : Nat} {p : β} (hi : i ∈ idx) (hp : l[i]? = some p) : p ∈ l' := by
  have : some p ∈ idx.map (l[·]?) := List.mem_map.2 ⟨i, hi, hp⟩
  rw [h] at this
  simpa using this

theorem dictGet_zip [DecidableEq α] {labels : List α} {row : List β} {o : α}
    (hl : labels.length = row.length) (ho : o ∈ labels) :
    dictGet (labels.zip row) o = row[labels.idxOf o]? := by
  induction labels generalizing row with
  | nil => simp at ho
  | cons k labels ih =>
    cases row with
    | nil => simp at hl
    | cons v row =>
      by_cases hk : k = o
      · subst hk; simp [dictGet]
      · have ho' : o ∈ labels := by
          rcases List.mem_cons.1 ho with h | h
          · exact absurd h.symm hk
          · exact h
        have := ih (row := row) (by simpa using hl) ho'
        simp only [dictGet, List.zip_cons_cons, List.find?_cons, hk, decide_false] at this ⊢
        have hb : (k == o) = false := by simpa using hk
        rw [this, List.idxOf_cons, hb]
        simp

theorem gather_getElem? {l l' : List β} {idx : List Nat} (h : idx.map (l[·]?) = l'.map some) (k : Nat) :
    l'[k]? = idx[k]?.bind (l[·]?) := by
  have h' := congrArg (fun m => m[k]?) h
  simp only [List.getElem?_map] at h'
  cases hk : idx[k]? <;> cases hk' : l'[k]? <;> simp_all

theorem gather_length {l l' : List β} {idx : List Nat} (h : idx.map (l[·]?) = l'.map some) :
    l'.length = idx.length := by
  have := congrArg List.length h
  simpa using this.symm

/-- Gathering the columns `own` out of a row labelled `xo`. -/
theorem gatherRow_by_label [DecidableEq α] {own xo : List α} {row : List β} (hsub : ∀ o ∈ own, o ∈ xo)
    (hrow : row.length = xo.length) :
    ∃ row', gatherRow row (own.map xo.idxOf) = .ok row' ∧ row'.length = own.length ∧
      ∀ o ∈ own, dictGet (own.zip row') o = dictGet (xo.zip row) o := by
  obtain ⟨row', hr⟩ := mapM_pyGet_ok_of_lt (l := row) (idx := own.map xo.idxOf) (by
    intro i hi
    obtain ⟨o, ho, rfl⟩ := List.mem_map.1 hi
    rw [hrow]
    exact List.idxOf_lt_length_iff.2 (hsub o ho))
  have hg := mapM_pyGet_ok.1 hr
  have hlen : row'.length = own.length := by simpa using gather_length hg
  refine ⟨row', hr, hlen, fun o ho => ?_⟩
  rw [dictGet_zip hlen.symm ho, dictGet_zip hrow.symm (hsub o ho), gather_getElem? hg]
  simp [List.getElem?_map, getElem?_idxOf_mem ho]

theorem mapM_ok_getElem? {ε : Type} {f : α → Except ε β} {l : List α} {r : List β}
    (h : l.mapM f = .ok r) {k : Nat} {x : α} (hx : l[k]? = some x) : ∃ y, r[k]? = some y ∧ f x = .ok y := by
  have h' := congrArg (fun m => m[k]?) ((mapM_ok_iff f l r).1 h)
  simp only [List.getElem?_map, hx, Option.map_some] at h'
  cases hr : r[k]? with
  | none => simp [hr] at h'
  | some y =>
    rw [hr] at h'
    simp only [Option.map_some, Option.some.injEq] at h'
    exact ⟨y, rfl, h'⟩

theorem mapM_ok_length {ε : Type} {f : α → Except ε β} {l : List α} {r : List β}
    (h : l.mapM f = .ok r) : r.length = l.length := by
  have h' := congrArg List.length ((mapM_ok_iff f l r).1 h)
  simpa using h'.symm

theorem mapM_ok_of_forall_exists {ε : Type} {f : α → Except ε β} {l : List α}
    (h : ∀ x ∈ l, ∃ y, f x = .ok y) : ∃ r, l.mapM f = .ok r := by
  induction l with
  | nil => exact ⟨[], rfl⟩
  | cons x l ih =>
    obtain ⟨y, hy⟩ := h x List.mem_cons_self
    obtain ⟨r, hr⟩ := ih (fun z hz => h z (List.mem_cons_of_mem _ hz))
    exact ⟨y :: r, by simp [List.mapM_cons, hy, hr]⟩

/-- Gathering by a permutation of the labels and gathering back gives the row. -/
theorem gatherRow_back [DecidableEq α] {own xo : List α} {row row' : List β} (hn : xo.Nodup)
    (hsup : ∀ o ∈ xo, o ∈ own) (hrow : row.length = xo.length)
    (h : gatherRow row (own.map xo.idxOf) = .ok row') :
    gatherRow row' (xo.map own.idxOf) = .ok row := by
  have hg := mapM_pyGet_ok.1 h
  apply mapM_pyGet_ok.2
  rw [List.map_map]
  apply List.ext_getElem?
  intro k
  simp only [List.getElem?_map]
  by_cases hk : k < xo.length
  · rw [List.getElem?_eq_getElem hk, List.getElem?_eq_getElem (by omega : k < row.length)]
    simp only [Option.map_some, Option.some.injEq]
    have hm : xo[k] ∈ own := hsup _ (List.getElem_mem hk)
    show row'[own.idxOf xo[k]]? = some row[k]
    rw [gather_getElem? hg]
    simp only [List.getElem?_map, getElem?_idxOf_mem hm, Option.map_some, Option.bind_some]
    have : xo.idxOf xo[k] = k := List.Nodup.idxOf_getElem hn k hk
    rw [this, List.getElem?_eq_getElem (by omega : k < row.length)]
  · rw [List.getElem?_eq_none (by omega), List.getElem?_eq_none (by omega)]
    rfl

/-- Each observable has one axis and each axis one observable. -/
def Functional (ps : List (String × Int)) : Prop :=
  (∀ p ∈ ps, ∀ q ∈ ps, p.1 = q.1 → p = q) ∧ (∀ p ∈ ps, ∀ q ∈ ps, p.2 = q.2 → p = q)

theorem functional_of_nodup {o : List String} {a : List Int} (ho : o.Nodup) (ha : a.Nodup) :
    Functional (o.zip a) := by
  constructor
  · intro p hp q hq h
    obtain ⟨i, hi⟩ := List.getElem?_of_mem hp
    obtain ⟨j, hj⟩ := List.getElem?_of_mem hq
    rw [List.getElem?_zip_eq_some] at hi hj
    have : i = j := by
      apply (List.getElem?_inj (List.getElem?_eq_some_iff.1 hi.1).1 ho).1
      rw [hi.1, hj.1, h]
    subst this
    have h2 := hi.2.symm.trans hj.2
    exact Prod.ext h (by simpa using h2)
  · intro p hp q hq h
    obtain ⟨i, hi⟩ := List.getElem?_of_mem hp
    obtain ⟨j, hj⟩ := List.getElem?_of_mem hq
    rw [List.getElem?_zip_eq_some] at hi hj
    have : i = j := by
      apply (List.getElem?_inj (List.getElem?_eq_some_iff.1 hi.2).1 ha).1
      rw [hi.2, hj.2, h]
    subst this
    have h2 := hi.1.symm.trans hj.1
    exact Prod.ext (by simpa using h2) h

theorem Functional.mono {ps qs : List (String × Int)} (h : Functional qs) (hs : ∀ p ∈ ps, p ∈ qs) :
    Functional ps :=
  ⟨fun p hp q hq e => h.1 p (hs p hp) q (hs q hq) e, fun p hp q hq e => h.2 p (hs p hp) q (hs q hq) e⟩

theorem idxOf_zip_obs {o : List String} {a : List Int} (hf : Functional (o.zip a))
    {p : String × Int} (hp : p ∈ o.zip a) (hl : o.length = a.length) :
    (o.zip a)[o.idxOf p.1]? = some p := by
  have hmem : p.1 ∈ o := (List.of_mem_zip (a := p.1) (b := p.2) hp).1
  have hlt := List.idxOf_lt_length_iff.2 hmem
  have hz : o.idxOf p.1 < (o.zip a).length := by rw [List.length_zip, ← hl]; simpa using hlt
  have hq : (o.zip a)[o.idxOf p.1]? = some (o.zip a)[o.idxOf p.1] := List.getElem?_eq_getElem hz
  rw [hq]
  congr 1
  apply hf.1 _ (List.getElem_mem hz) _ hp
  simp

theorem idxOf_zip_axes {o : List String} {a : List Int} (hf : Functional (o.zip a))
    {p : String × Int} (hp : p ∈ o.zip a) (hl : o.length = a.length) :
    (o.zip a)[a.idxOf p.2]? = some p := by
  have hmem : p.2 ∈ a := (List.of_mem_zip (a := p.1) (b := p.2) hp).2
  have hlt := List.idxOf_lt_length_iff.2 hmem
  have hz : a.idxOf p.2 < (o.zip a).length := by rw [List.length_zip, hl]; simpa using hlt
  have hq : (o.zip a)[a.idxOf p.2]? = some (o.zip a)[a.idxOf p.2] := List.getElem?_eq_getElem hz
  rw [hq]
  congr 1
  apply hf.2 _ (List.getElem_mem hz) _ hp
  simp

end Zfit.Coord
