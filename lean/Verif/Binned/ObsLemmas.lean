import Verif.Binned.Lemmas
import Verif.Binned.Spec

/-! C22: reordering binned data. -/

namespace Zfit.Bin

open Zfit

variable {h : Holder} {t : List String}

theorem axis_ok {s : BSpace} {x : String} (hx : x ∈ s.obs) : ∃ a ∈ s.axes, a.name = x ∧ s.axis x = .ok a := by
  unfold BSpace.axis
  cases hf : s.axes.find? (fun a => a.name = x) with
  | none =>
    obtain ⟨a, ha, rfl⟩ := List.mem_map.1 hx
    have := List.find?_eq_none.1 hf a ha
    simp at this
  | some a =>
    refine ⟨a, List.mem_of_find?_eq_some hf, ?_, rfl⟩
    have := List.find?_some hf
    simpa using this

/-- the axis of a name, total -/
def axisOf (s : BSpace) (x : String) : Axis := (s.axes.find? (fun a => a.name = x)).getD ⟨"", []⟩

theorem axis_eq {s : BSpace} {x : String} (hx : x ∈ s.obs) : s.axis x = .ok (axisOf s x) ∧ (axisOf s x).name = x
    ∧ axisOf s x ∈ s.axes := by
  obtain ⟨a, ha, hn, hok⟩ := axis_ok hx
  unfold BSpace.axis at hok
  unfold axisOf BSpace.axis
  split at hok
  · rename_i b hb
    cases hok
    rw [hb]
    exact ⟨rfl, hn, ha⟩
  · cases hok

theorem axisOf_getElem {s : BSpace} (hn : s.obs.Nodup) {i : Nat} (hi : i < s.axes.length) :
    axisOf s (s.axes[i].name) = s.axes[i] := by
  have hx : s.axes[i].name ∈ s.obs := List.mem_map.2 ⟨_, List.getElem_mem hi, rfl⟩
  obtain ⟨_, h2, h3⟩ := axis_eq hx
  exact List.inj_on_of_nodup_map hn h3 (List.getElem_mem hi) h2

theorem withObs_space_perm {s : BSpace} (hp : t.Perm s.obs) (hne : s.obs ≠ []) :
    s.withObs t = .ok ⟨t.map (axisOf s)⟩ := by
  unfold BSpace.withObs
  have hmem : ∀ x ∈ t, x ∈ s.obs := fun x hx => hp.mem_iff.1 hx
  have hany : t.any (· ∈ s.obs) = true := by
    obtain ⟨x, hx⟩ := List.exists_mem_of_ne_nil _ hne
    simp only [List.any_eq_true, decide_eq_true_eq]
    exact ⟨x, hp.mem_iff.2 hx, hx⟩
  rw [if_neg (fun h => h hany), List.filter_eq_self.2 (by simpa using hmem),
    mapM_ok_of_forall _ (axisOf s) _ (fun x hx => (axis_eq (hmem x hx)).1)]
  rfl

theorem dest_perm {o : List String} (hn : o.Nodup) (hp : t.Perm o) :
    (t.map (fun x => o.idxOf x)).Perm (List.range o.length) := by
  refine (hp.map _).trans ?_
  have : o.map (fun x => o.idxOf x) = List.range o.length := by
    apply List.ext_getElem (by simp)
    intro i h1 h2
    simp only [List.getElem_map, List.getElem_range]
    exact hn.idxOf_getElem _ _
  rw [this]

/-- what `move_axis_obs` does with an array -/
theorem moveAxisObs_perm {o : List String} (hn : o.Nodup) (hp : t.Perm o) (a : NDArr) (ha : a.shape.length = o.length) :
    ∃ b, moveAxisObs o t a = .ok b ∧
      b.shape = o.map (fun x => a.shape.getD (t.idxOf x) 0) ∧
      ∀ idx, b.get idx = a.get (t.map (fun x => idx.getD (o.idxOf x) 0)) := by
  have hd := dest_perm hn hp
  have htn : t.Nodup := hp.nodup_iff.2 hn
  have hlen : t.length = o.length := hp.length_eq
  refine ⟨a.transpose ((List.range o.length).map (fun k => (t.map (fun x => o.idxOf x)).idxOf k)), ?_, ?_, ?_⟩
  · unfold moveAxisObs NDArr.moveaxis
    rw [mapM_pyIndex (fun x hx => hp.mem_iff.1 hx), except_bind_ok, if_pos (hd.nodup_iff.2 List.nodup_range), ha, hlen,
      moveaxisOrder_perm hd]
  · rw [transpose_shape, List.map_map]
    apply List.ext_getElem (by simp)
    intro i h1 h2
    simp only [List.getElem_map, List.getElem_range, Function.comp]
    congr 1
    have hi : i < o.length := by simpa using h2
    have ht : o[i] ∈ t := hp.mem_iff.2 (List.getElem_mem hi)
    have hlt : t.idxOf o[i] < t.length := List.idxOf_lt_length_iff.2 ht
    have hdn := hd.nodup_iff.2 List.nodup_range
    have : (t.map (fun x => o.idxOf x))[t.idxOf o[i]]'(by simpa using hlt) = i := by
      simp only [List.getElem_map, List.getElem_idxOf]
      exact hn.idxOf_getElem _ _
    conv_lhs => rw [← this]
    exact hdn.idxOf_getElem _ _
  · intro idx
    rw [transpose_get hd, List.map_map]
    rfl

end Zfit.Bin
