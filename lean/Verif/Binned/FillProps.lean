import Verif.Binned.FillLemmas
import Verif.Binned.ObsProps

/-! C23: binning unbinned data. -/

namespace Zfit.Bin

open Zfit

theorem toHist_get (incl : Bool) (edges : List (List Rat)) (rows : List (List Rat × Rat)) (idx : List Nat) :
    (toHist incl edges rows).1.get idx = ((rows.filter (fun r => rowBin incl edges r.1 = some idx)).map (·.2)).sum ∧
    (toHist incl edges rows).2.get idx =
      ((rows.filter (fun r => rowBin incl edges r.1 = some idx)).map (fun r => r.2 * r.2)).sum := by
  unfold toHist
  simp only
  suffices h : ∀ (g1 g2 : List Nat → Rat),
      (rows.foldl (fillRow incl edges) (g1, g2)).1 idx
        = g1 idx + ((rows.filter (fun r => rowBin incl edges r.1 = some idx)).map (·.2)).sum ∧
      (rows.foldl (fillRow incl edges) (g1, g2)).2 idx
        = g2 idx + ((rows.filter (fun r => rowBin incl edges r.1 = some idx)).map (fun r => r.2 * r.2)).sum by
    have := h (fun _ => 0) (fun _ => 0)
    simpa using this
  induction rows with
  | nil => intro g1 g2; simp
  | cons r rows ih =>
    intro g1 g2
    rw [List.foldl_cons]
    cases hr : rowBin incl edges r.1 with
    | none =>
      simp only [fillRow, hr]
      have := ih g1 g2
      rw [List.filter_cons_of_neg (by simp [hr])]
      exact this
    | some k =>
      simp only [fillRow, hr]
      have := ih (fun j => if j = k then g1 j + r.2 else g1 j) (fun j => if j = k then g2 j + r.2 * r.2 else g2 j)
      rw [this.1, this.2]
      by_cases hk : idx = k
      · subst hk
        rw [List.filter_cons_of_pos (by simp [hr])]
        simp [add_assoc]
      · rw [List.filter_cons_of_neg (by simp [hr, Ne.symm hk])]
        simp [hk]

theorem mapM_option_some {α β : Type} (f : α → Option β) (l : List α) (r : List β) :
    l.mapM f = some r ↔ l.map f = r.map some := by
  induction l generalizing r with
  | nil => cases r <;> simp
  | cons a l ih =>
    rw [List.mapM_cons]
    cases hfa : f a with
    | none => cases r <;> simp [hfa]
    | some b =>
      cases hl : l.mapM f with
      | none =>
        simp only [Option.bind_eq_bind, Option.bind_some, Option.bind_none]
        cases r with
        | nil => simp
        | cons c r =>
          simp only [reduceCtorEq, List.map_cons, hfa, List.cons.injEq, Option.some.injEq, false_iff, not_and]
          intro _ h
          rw [(ih r).2 h] at hl; cases hl
      | some q =>
        have := (ih q).1 hl
        simp only [Option.bind_eq_bind, Option.bind_some, Option.pure_def, Option.some.injEq, List.map_cons, hfa, this]
        cases r with
        | nil => simp
        | cons c r =>
          simp only [List.cons.injEq, List.map_cons, Option.some.injEq]
          constructor
          · rintro ⟨rfl, rfl⟩; exact ⟨rfl, rfl⟩
          · rintro ⟨rfl, h⟩; exact ⟨rfl, List.map_injective_iff.2 (Option.some_injective _) h⟩

variable {incl : Bool} {s : BSpace} {d : UData} {pts : WPoints}

theorem rowBin_point (p : String → Rat) : rowBin incl (s.axes.map (·.edges)) (s.obs.map p) =
    s.axes.mapM (fun a => findBin incl a.edges (p a.name)) := by
  unfold rowBin BSpace.obs
  rw [List.map_map, List.zip_map']
  induction s.axes with
  | nil => rfl
  | cons a l ih => simp only [List.map_cons, List.mapM_cons, ih]; rfl

theorem rowBin_cell (hs : s.Proper) (p : String → Rat) (f : String → Nat) :
    (rowBin incl (s.axes.map (·.edges)) (s.obs.map p) = some (s.obs.map f)) ↔ s.cell incl f p = true := by
  rw [rowBin_point, mapM_option_some]
  unfold BSpace.cell BSpace.obs
  rw [List.map_map, List.map_map, List.all_eq_true]
  rw [List.map_inj_left]
  constructor
  · intro h a ha
    exact (findBin_iff (hs.2 a ha)).1 (h a ha)
  · intro h a ha
    exact (findBin_iff (hs.2 a ha)).2 (h a ha)

theorem rowBin_isSome (hs : s.Proper) (p : String → Rat) :
    (rowBin incl (s.axes.map (·.edges)) (s.obs.map p)).isSome = s.covers incl p := by
  rw [rowBin_point]
  unfold BSpace.covers
  have hall := hs.2
  clear hs
  generalize s.axes = axes at hall ⊢
  induction axes with
  | nil => rfl
  | cons a l ih =>
    rw [List.mapM_cons, List.all_cons, ← findBin_isSome (hall a (by simp)), ← ih (fun b hb => hall b (by simp [hb]))]
    cases findBin incl a.edges (p a.name) with
    | none => rfl
    | some b =>
      cases List.mapM (fun a => findBin incl a.edges (p a.name)) l <;> rfl

theorem mem_allIdx {shape idx : List Nat} : idx ∈ allIdx shape ↔ List.Forall₂ (· < ·) idx shape := by
  induction shape generalizing idx with
  | nil => simp [allIdx]
  | cons n rest ih =>
    simp only [allIdx, List.mem_flatMap, List.mem_range, List.mem_map]
    constructor
    · rintro ⟨i, hi, l, hl, rfl⟩
      exact List.Forall₂.cons hi (ih.1 hl)
    · intro h
      cases h with
      | cons h1 h2 => exact ⟨_, h1, _, ih.2 h2, rfl⟩

theorem allIdx_nodup (shape : List Nat) : (allIdx shape).Nodup := by
  induction shape with
  | nil => simp [allIdx]
  | cons n rest ih =>
    rw [allIdx, List.nodup_flatMap]
    refine ⟨fun i _ => ih.map (fun a b h => by simpa using h), ?_⟩
    refine List.Pairwise.imp ?_ (List.nodup_range (n := n))
    intro a b hab
    simp only [Function.onFun, List.disjoint_left, List.mem_map]
    rintro _ ⟨x, _, rfl⟩ ⟨y, _, h⟩
    exact hab (List.cons.inj h).1.symm

theorem rowBin_mem (hs : s.Proper) (p : String → Rat) {idx : List Nat}
    (h : rowBin incl (s.axes.map (·.edges)) (s.obs.map p) = some idx) :
    idx ∈ allIdx ((s.axes.map (·.edges)).map (fun e => e.length - 1)) := by
  rw [rowBin_point, mapM_option_some] at h
  rw [mem_allIdx, List.map_map, List.forall₂_iff_get]
  have hl : s.axes.length = idx.length := by simpa using congrArg List.length h
  refine ⟨by simp [hl], ?_⟩
  intro i h1 h2
  simp only [List.get_eq_getElem, List.getElem_map, Function.comp]
  have hi : i < s.axes.length := by omega
  have : (s.axes.map (fun a => findBin incl a.edges (p a.name)))[i]'(by simpa using hi) = (idx.map some)[i]'(by simpa using h1) := by
    simp only [h]
  simp only [List.getElem_map] at this
  exact findBin_lt (hs.2 _ (List.getElem_mem hi)).2 this

theorem sum_ite {κ : Type} [DecidableEq κ] {keys : List κ} (hk : keys.Nodup) {k0 : κ} (hmem : k0 ∈ keys) (c : Rat) :
    (keys.map (fun k => if k = k0 then c else 0)).sum = c := by
  induction keys with
  | nil => simp at hmem
  | cons q keys ihk =>
    rw [List.nodup_cons] at hk
    rw [List.map_cons, List.sum_cons]
    by_cases hq : q = k0
    · subst hq
      have : (keys.map (fun k => if k = q then c else 0)) = keys.map (fun _ => (0 : Rat)) := by
        apply List.map_congr_left
        intro k hk'
        rw [if_neg]; rintro rfl; exact hk.1 hk'
      rw [this]; simp
    · rw [if_neg hq, zero_add]
      exact ihk hk.2 (by simpa [Ne.symm hq] using hmem)

theorem sum_partition {α κ : Type} [DecidableEq κ] (keys : List κ) (hk : keys.Nodup) (l : List α) (key : α → Option κ)
    (hkey : ∀ a ∈ l, ∀ k, key a = some k → k ∈ keys) (g : α → Rat) :
    (keys.map (fun k => ((l.filter (fun a => key a = some k)).map g).sum)).sum
      = ((l.filter (fun a => (key a).isSome)).map g).sum := by
  induction l with
  | nil => simp
  | cons a l ih =>
    have ih := ih (fun b hb => hkey b (by simp [hb]))
    cases hka : key a with
    | none =>
      rw [List.filter_cons_of_neg (by simp [hka]), ← ih]
      congr 1
      apply List.map_congr_left
      intro k _
      rw [List.filter_cons_of_neg (by simp [hka])]
    | some k0 =>
      rw [List.filter_cons_of_pos (by simp [hka]), List.map_cons, List.sum_cons, ← ih]
      have hmem := hkey a (by simp) k0 hka
      have : ∀ k, (((a :: l).filter (fun a => key a = some k)).map g).sum
          = (if k = k0 then g a else 0) + ((l.filter (fun a => key a = some k)).map g).sum := by
        intro k
        by_cases hk0 : k = k0
        · subst hk0; rw [List.filter_cons_of_pos (by simp [hka])]; simp
        · rw [List.filter_cons_of_neg (by simp [hka, Ne.symm hk0])]; simp [hk0]
      simp only [this]
      rw [List.sum_map_add]
      congr 1
      exact sum_ite hk hmem (g a)

/-- **C23 (partial).** Binning a dataset in a space with the same observables *in the same order*: every bin holds the
sum of the weights of exactly those events that lie in it (by the names of the observables), its variance the sum of
the squared weights; the sum of all contents is the sum of the weights of the events in the range of the binning.
Missing: data whose observables are in a different order (see `binning_order_violated`). -/
theorem binning_contents_partial (hs : s.Proper) (hd : d.Holds pts) (hobs : d.obs = s.obs) :
    ∃ h v, unbinnedToBinned incl d s = .ok h ∧ h.space = s ∧ h.Proper ∧ h.variances = some v ∧
      (∀ f, byName s h.values f = sumWhere (s.cell incl f) id pts) ∧
      (∀ f, byName s v f = sumWhere (s.cell incl f) (fun w => w * w) pts) ∧
      h.values.total = sumWhere (s.covers incl) id pts ∧
      v.total = sumWhere (s.covers incl) (fun w => w * w) pts := by
  have hlen : ¬ d.obs.length ≠ s.axes.length := by rw [hobs]; simp [BSpace.obs]
  have hzip : d.rows.zip (d.weights.getD (d.rows.map (fun _ => 1))) = pts.map (fun e => (s.obs.map e.1, e.2)) := by
    rw [hd.2, hd.1, List.zip_map', hobs]
  set hh := toHist incl (s.axes.map (·.edges)) (pts.map (fun e => (s.obs.map e.1, e.2))) with hhdef
  have hsh1 : hh.1.shape = s.axes.map (fun a => a.edges.length - 1) := by
    rw [hhdef]; unfold toHist; simp only [List.map_map]; rfl
  have hsh2 : hh.2.shape = hh.1.shape := by
    rw [hhdef]; unfold toHist; rfl
  have hu : unbinnedToBinned incl d s = .ok ⟨s, hh.1, some hh.2⟩ := by
    unfold unbinnedToBinned
    simp only [hzip]
    rw [if_neg hlen, ← hhdef]
    exact make_ok hsh1 (by rintro x ⟨⟩; exact hsh2)
  have hget := toHist_get incl (s.axes.map (·.edges)) (pts.map (fun e => (s.obs.map e.1, e.2)))
  have hfil : ∀ (idx : List Nat) (g : Rat → Rat),
      (((pts.map (fun e => (s.obs.map e.1, e.2))).filter
        (fun r => rowBin incl (s.axes.map (·.edges)) r.1 = some idx)).map (fun r => g r.2)).sum
      = ((pts.filter (fun e => rowBin incl (s.axes.map (·.edges)) (s.obs.map e.1) = some idx)).map (fun e => g e.2)).sum := by
    intro idx g
    rw [List.filter_map, List.map_map]; rfl
  have htot : ∀ (g : Rat → Rat),
      ((allIdx hh.1.shape).map (fun idx => (((pts.filter
        (fun e => rowBin incl (s.axes.map (·.edges)) (s.obs.map e.1) = some idx)).map (fun e => g e.2)).sum))).sum
      = sumWhere (s.covers incl) g pts := by
    intro g
    rw [sum_partition (allIdx hh.1.shape) (allIdx_nodup _) pts
      (fun e => rowBin incl (s.axes.map (·.edges)) (s.obs.map e.1)) ?_ (fun e => g e.2)]
    · unfold sumWhere
      congr 2
      apply List.filter_congr
      intro e _
      rw [rowBin_isSome hs]
    · intro e _ k hk
      have := rowBin_mem hs e.1 hk
      rw [hsh1]
      rw [List.map_map] at this
      exact this
  refine ⟨_, hh.2, hu, rfl, ⟨hs.1, hsh1, by rintro v ⟨⟩; exact hsh2⟩, rfl, ?_, ?_, ?_, ?_⟩
  · intro f
    unfold byName sumWhere
    rw [hhdef, (hget _).1]
    have := hfil (s.obs.map f) id
    simp only [id] at this
    rw [this]
    congr 2
    apply List.filter_congr
    intro e _
    rw [Bool.eq_iff_iff, decide_eq_true_eq, rowBin_cell hs]
  · intro f
    unfold byName sumWhere
    rw [hhdef, (hget _).2]
    have := hfil (s.obs.map f) (fun w => w * w)
    rw [this]
    congr 2
    apply List.filter_congr
    intro e _
    rw [Bool.eq_iff_iff, decide_eq_true_eq, rowBin_cell hs]
  · rw [← htot id]
    unfold NDArr.total
    congr 1
    apply List.map_congr_left
    intro idx _
    rw [hhdef, (hget _).1]
    exact hfil idx id
  · rw [← htot]
    unfold NDArr.total
    rw [hsh2]
    congr 1
    apply List.map_congr_left
    intro idx _
    rw [hhdef, (hget _).2]
    exact hfil idx (fun w => w * w)

/-- A dataset whose number of observables differs from that of the binned space is refused. -/
theorem binning_wrong_number (h : d.obs.length ≠ s.obs.length) :
    unbinnedToBinned incl d s = .error .valueError := by
  unfold unbinnedToBinned
  simp only
  rw [if_pos (by simpa [BSpace.obs] using h)]

/-- **C23, bin indices.** The bin index of every event along every axis of the space is found by the name of the axis,
whatever the order (and number) of the observables of the data. -/
theorem binindex_by_name (hs : s.Proper) (hd : d.Holds pts) (hobs : ∀ x ∈ s.obs, x ∈ d.obs) :
    ∃ r, unbinnedToBinindex d s = .ok r ∧ r.length = pts.length ∧
      ∀ (k : Nat) e, pts[k]? = some e → ∃ row, r[k]? = some row ∧ row.length = s.axes.length ∧
        ∀ (j : Nat) a, s.axes[j]? = some a → ∃ b, row[j]? = some b ∧
          ∀ i, b = some i ↔ inBin true a.edges i (e.1 a.name) = true := by
  have hcol : ∀ x ∈ s.obs, d.column x = .ok (pts.map (fun e => e.1 x)) := by
    intro x hx
    unfold UData.column
    rw [pyIndex_ok (hobs x hx), except_bind_ok, hd.1, mapM_ok_iff, List.map_map, List.map_map]
    apply List.map_congr_left
    intro e _
    simp only [Function.comp]
    rw [pyGet_ok, List.getElem?_map]
    have hlt : d.obs.idxOf x < d.obs.length := List.idxOf_lt_length_iff.2 (hobs x hx)
    rw [List.getElem?_eq_getElem hlt, List.getElem_idxOf]
    rfl
  have hlen : d.rows.length = pts.length := by rw [hd.1]; simp
  unfold unbinnedToBinindex
  rw [mapM_ok_of_forall _ _ _ hcol, except_bind_ok]
  refine ⟨_, rfl, by simp [hlen], ?_⟩
  intro k e he
  have hk : k < pts.length := (List.getElem?_eq_some_iff.1 he).1
  refine ⟨_, by rw [List.getElem?_map, List.getElem?_range (by omega)]; rfl, by simp [BSpace.obs], ?_⟩
  intro j a ha
  have hj : j < s.axes.length := (List.getElem?_eq_some_iff.1 ha).1
  have hja : s.axes[j] = a := (List.getElem?_eq_some_iff.1 ha).2
  refine ⟨findBin true a.edges (e.1 a.name), ?_, ?_⟩
  · have h1 : ((s.obs.map (fun x => pts.map (fun e => e.1 x))).zip (s.axes.map (·.edges)))[j]? =
        some (pts.map (fun e => e.1 a.name), a.edges) := by
      unfold BSpace.obs
      rw [List.map_map, List.zip_map', List.getElem?_map, ha]; rfl
    rw [List.getElem?_map, List.getElem?_map, h1]
    simp only [Option.map_some, List.getElem?_map, he, tfpFindBin, Option.join_some]
  · intro i
    exact findBin_iff (hs.2 a (hja ▸ List.getElem_mem hj))

theorem centers_length (e : List Rat) : (centers e).length = e.length - 1 := by
  induction e with
  | nil => rfl
  | cons a l ih =>
    cases l with
    | nil => rfl
    | cons b l => simp only [centers, List.length_cons, ih]; simp

theorem centers_getElem? {e : List Rat} {i : Nat} {lo hi : Rat} (h1 : e[i]? = some lo) (h2 : e[i + 1]? = some hi) :
    (centers e)[i]? = some ((lo + hi) / 2) := by
  induction e generalizing i with
  | nil => simp at h1
  | cons a l ih =>
    cases l with
    | nil => simp at h2
    | cons b l =>
      cases i with
      | zero => simp at h1 h2; simp [centers, h1, h2]
      | succ i =>
        rw [centers, List.getElem?_cons_succ]
        exact ih (by simpa using h1) (by simpa using h2)

theorem center_inBin {e : List Rat} (h : GoodEdges e) {i : Nat} (hi : i < e.length - 1) (j : Nat) :
    inBin incl e j ((centers e).getD i 0) = true ↔ j = i := by
  have hlo : e[i]? = some (e[i]'(by omega)) := List.getElem?_eq_getElem (by omega)
  have hhi : e[i + 1]? = some (e[i + 1]'(by omega)) := List.getElem?_eq_getElem (by omega)
  have hlt : e[i]'(by omega) < e[i + 1]'(by omega) :=
    List.pairwise_iff_getElem.1 h.1 _ _ (by omega) (by omega) (Nat.lt_succ_self i)
  have hc : (centers e).getD i 0 = (e[i]'(by omega) + e[i + 1]'(by omega)) / 2 := by
    rw [List.getD_eq_getElem?_getD, centers_getElem? hlo hhi]; rfl
  have hin : inBin incl e i ((centers e).getD i 0) = true := by
    unfold inBin
    rw [hlo, hhi, hc]
    simp only [Bool.and_eq_true, Bool.or_eq_true, decide_eq_true_eq]
    exact ⟨by linarith, Or.inl (by linarith)⟩
  constructor
  · intro hj
    have h1 := (findBin_iff h).2 hin
    have h2 := (findBin_iff h).2 hj
    rw [h1] at h2
    exact (Option.some.inj h2).symm
  · rintro rfl; exact hin

/-- C68: the rows of the unbinned data are the centres of the bins, one row per bin. -/
theorem unbinned_rows_are_centres {h : Holder} (hp : h.Proper) :
    h.toUnbinned.rows = (allIdx h.values.shape).map (fun idx => (h.space.axes.zip idx).map
      (fun p => (p.1.edges.getD p.2 0 + p.1.edges.getD (p.2 + 1) 0) / 2)) := by
  obtain ⟨_, hshape, _⟩ := hp
  have hcl : (h.space.axes.map (fun a => centers a.edges)).map List.length = h.values.shape := by
    rw [hshape, List.map_map]
    apply List.map_congr_left
    intro a _
    exact centers_length _
  unfold Holder.toUnbinned
  simp only
  rw [hcl]
  apply List.map_congr_left
  intro idx hidx
  have hi := List.forall₂_iff_get.1 (mem_allIdx.1 hidx)
  rw [List.zip_map_left, List.map_map]
  apply List.map_congr_left
  intro p hpm
  simp only [Function.comp, Prod.map, id]
  obtain ⟨i, hil, rfl⟩ := List.getElem_of_mem hpm
  simp only [List.length_zip] at hil
  have h2 : i < h.values.shape.length := by rw [hshape]; simp; omega
  have hlt := hi.2 i (by omega) h2
  simp only [List.getElem_zip]
  simp only [List.get_eq_getElem, hshape, List.getElem_map] at hlt
  have e1 : (h.space.axes[i].edges)[idx[i]]? = some ((h.space.axes[i].edges)[idx[i]]'(by simp_all; omega)) :=
    List.getElem?_eq_getElem _
  have e2 : (h.space.axes[i].edges)[idx[i] + 1]? = some ((h.space.axes[i].edges)[idx[i] + 1]'(by simp_all; omega)) :=
    List.getElem?_eq_getElem _
  rw [List.getD_eq_getElem?_getD, List.getD_eq_getElem?_getD, List.getD_eq_getElem?_getD, centers_getElem? e1 e2, e1, e2]
  rfl

/-- **C68.** Turning binned data into unbinned data (bin centres weighted by the contents) and binning that in the
same space gives every bin its content back; the sum of the weights is the sum of the contents. -/
theorem unbinned_and_back {h : Holder} (hp : h.Proper) (hs : h.space.Proper) :
    h.toUnbinned.obs = h.space.obs ∧ (h.toUnbinned.weights.getD []).sum = h.values.total ∧
    ∃ h', unbinnedToBinned incl h.toUnbinned h.space = .ok h' ∧ h'.space = h.space ∧
      h'.values.shape = h.values.shape ∧ ∀ idx ∈ allIdx h.values.shape, h'.values.get idx = h.values.get idx := by
  refine ⟨rfl, rfl, ?_⟩
  obtain ⟨hn, hshape, _⟩ := hp
  set s := h.space with hsdef
  set cs := s.axes.map (fun a => centers a.edges) with hcs
  have hcl : cs.map List.length = h.values.shape := by
    rw [hshape, hcs, List.map_map]
    apply List.map_congr_left
    intro a _
    exact centers_length _
  set row : List Nat → List Rat := fun idx => (cs.zip idx).map (fun p => p.1.getD p.2 0) with hrow
  set pt : List Nat → String → Rat := fun idx n => (row idx).getD (s.obs.idxOf n) 0 with hpt
  set pts : WPoints := (allIdx h.values.shape).map (fun idx => (pt idx, h.values.get idx)) with hpts
  have hidxlen : ∀ idx ∈ allIdx h.values.shape, idx.length = s.axes.length := by
    intro idx hidx
    rw [(mem_allIdx.1 hidx).length_eq, hshape]; simp
  have hrl : ∀ idx ∈ allIdx h.values.shape, (row idx).length = s.axes.length := by
    intro idx hidx
    simp [hrow, hcs, hidxlen idx hidx]
  have hrowpt : ∀ idx ∈ allIdx h.values.shape, s.obs.map (pt idx) = row idx := by
    intro idx hidx
    apply List.ext_getElem
    · rw [hrl idx hidx]; simp [BSpace.obs]
    intro i h1 h2
    simp only [List.getElem_map, hpt]
    rw [hn.idxOf_getElem, List.getD_eq_getElem?_getD, List.getElem?_eq_getElem h2]; rfl
  have hholds : h.toUnbinned.Holds pts := by
    unfold UData.Holds Holder.toUnbinned
    simp only [Option.getD_some]
    rw [← hsdef, ← hcs, hcl]
    constructor
    · rw [hpts, List.map_map]
      apply List.map_congr_left
      intro idx hidx
      simp only [Function.comp]
      rw [hrowpt idx hidx]
    · rw [hpts, List.map_map]; rfl
  obtain ⟨h', v, h1, h2, h3, _, h4, _⟩ := binning_contents_partial (incl := incl) hs hholds rfl
  refine ⟨h', h1, h2, ?_, ?_⟩
  · rw [h3.2.1, h2, hshape]
  · intro idx hidx
    have hil := hidxlen idx hidx
    have hobs : s.obs.map (fun n => idx.getD (s.obs.idxOf n) 0) = idx := by
      apply List.ext_getElem
      · simp [BSpace.obs, hil]
      intro i h1 h2
      simp only [List.getElem_map]
      rw [hn.idxOf_getElem, List.getD_eq_getElem?_getD, List.getElem?_eq_getElem h2]; rfl
    have := h4 (fun n => idx.getD (s.obs.idxOf n) 0)
    unfold byName at this
    rw [hobs] at this
    rw [this]
    unfold sumWhere
    rw [hpts, List.filter_map, List.map_map]
    have hfilter : (allIdx h.values.shape).filter
        ((fun e : (String → Rat) × Rat => s.cell incl (fun n => idx.getD (s.obs.idxOf n) 0) e.1) ∘ fun idx => (pt idx, h.values.get idx))
        = (allIdx h.values.shape).filter (fun k => k = idx) := by
      apply List.filter_congr
      intro k hk
      simp only [Function.comp]
      rw [Bool.eq_iff_iff, decide_eq_true_eq]
      have hkl := hidxlen k hk
      have key : ∀ i (hi : i < s.axes.length), (inBin incl s.axes[i].edges (idx.getD (s.obs.idxOf s.axes[i].name) 0)
          (pt k s.axes[i].name) = true ↔ idx[i]'(by omega) = k[i]'(by omega)) := by
        intro i hi
        have hio : i < s.obs.length := by simpa [BSpace.obs] using hi
        have hname : s.axes[i].name = s.obs[i] := by simp [BSpace.obs]
        have hrk : i < (row k).length := by rw [hrl k hk]; exact hi
        have hki : k[i]'(by omega) < s.axes[i].edges.length - 1 := by
          have := (List.forall₂_iff_get.1 (mem_allIdx.1 hk)).2 i (by omega) (by rw [hshape]; simpa using hi)
          simpa [hshape] using this
        simp only [hpt, hname, hn.idxOf_getElem]
        rw [List.getD_eq_getElem?_getD, List.getD_eq_getElem?_getD, List.getElem?_eq_getElem (by omega),
          List.getElem?_eq_getElem hrk]
        have : (row k)[i] = (centers s.axes[i].edges).getD (k[i]'(by omega)) 0 := by
          simp [hrow, hcs]
        simp only [Option.getD_some, this]
        exact center_inBin (hs.2 _ (List.getElem_mem hi)) hki _
      unfold BSpace.cell
      rw [List.all_eq_true]
      constructor
      · intro hall
        apply List.ext_getElem (by omega)
        intro i h1 h2
        exact ((key i (by omega)).1 (hall _ (List.getElem_mem _))).symm
      · rintro rfl a ha
        obtain ⟨i, hi, rfl⟩ := List.getElem_of_mem ha
        exact (key i hi).2 rfl
    rw [hfilter]
    have hsing : (allIdx h.values.shape).filter (fun k => k = idx) = [idx] := by
      have hc : (allIdx h.values.shape).filter (fun k => k = idx) = (allIdx h.values.shape).filter (fun k => k == idx) :=
        List.filter_congr (fun k _ => by rw [Bool.eq_iff_iff, decide_eq_true_eq, beq_iff_eq])
      rw [hc, List.filter_beq, List.count_eq_one_of_mem (allIdx_nodup _) hidx]
      rfl
    rw [hsing]
    simp

/-! ### Witnesses -/

/-- Two axes with different edges. -/
def grid2 : BSpace := ⟨[⟨"x", [0, 1, 2]⟩, ⟨"y", [10, 20, 30, 40]⟩]⟩

theorem grid2_proper : grid2.Proper := by
  refine ⟨by decide, ?_⟩
  intro a ha
  simp only [grid2, List.mem_cons, List.not_mem_nil, or_false] at ha
  rcases ha with rfl | rfl <;> exact ⟨by decide +kernel, by decide⟩

/-- Three events, the last one outside. -/
def somePoints : WPoints :=
  [(fun n => if n = "x" then 1 else 25, 2), (fun n => if n = "x" then 3/2 else 20, 3), (fun n => if n = "x" then 5 else 20, 7)]

/-- The dataset of these events with the columns in the given order. -/
def someData (obs : List String) : UData := ⟨obs, somePoints.map (fun e => obs.map e.1), some [2, 3, 7]⟩

theorem someData_holds (obs : List String) : (someData obs).Holds somePoints := ⟨rfl, rfl⟩

/-- non-vacuity of `binning_contents_partial`: the weights 2 and 3 fall in the bin (1, 1), 7 outside -/
example : sumWhere (grid2.cell false (fun _ => 1)) id somePoints = 5 ∧ sumWhere (grid2.covers false) id somePoints = 5 ∧
    (someData ["x", "y"]).obs = grid2.obs := by decide +kernel

example := binning_contents_partial (incl := true) grid2_proper (someData_holds ["x", "y"]) rfl
example := binindex_by_name grid2_proper (someData_holds ["y", "x"]) (by decide)
example : unbinnedToBinindex (someData ["y", "x"]) grid2 = .ok [[some 1, some 1], [some 1, some 1], [none, some 1]] := by
  decide +kernel

/-- **C23 is false** for data whose observables are in another order than those of the binned space: the columns are
taken as they come.  The events of `someData` in the range have weight 5, the histogram is empty, without an error. -/
theorem binning_order_violated :
    (someData ["y", "x"]).Holds somePoints ∧ sumWhere (grid2.covers false) id somePoints = 5 ∧
    ∃ h, unbinnedToBinned false (someData ["y", "x"]) grid2 = .ok h ∧ h.values.total = 0 := by
  refine ⟨someData_holds _, by decide +kernel, ?_⟩
  have key : (unbinnedToBinned false (someData ["y", "x"]) grid2).map (fun h => h.values.total) = .ok 0 := by decide +kernel
  cases hc : unbinnedToBinned false (someData ["y", "x"]) grid2 with
  | error e => rw [hc] at key; cases key
  | ok h => rw [hc] at key; exact ⟨h, rfl, by simpa [Except.map] using key⟩

example : brick.space.Proper := by
  refine ⟨by decide, ?_⟩
  intro a ha
  simp only [brick, List.mem_cons, List.not_mem_nil, or_false] at ha
  rcases ha with rfl | rfl | rfl <;> exact ⟨by decide +kernel, by decide⟩

end Zfit.Bin
