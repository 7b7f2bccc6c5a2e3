import Verif.Binned.Model
import Verif.Common.Except
import Mathlib.Data.List.Nodup
import Mathlib.Data.List.Range

namespace Zfit.Bin

open Zfit

theorem foldl_insert_map (n : Nat) (g : Nat → Nat) :
    ((List.range n).map (fun k => (k, g k))).foldl (fun order p => pyInsert order p.1 p.2) [] = (List.range n).map g := by
  induction n with
  | zero => rfl
  | succ n ih =>
    rw [List.range_succ, List.map_append, List.foldl_append, ih]
    simp only [List.map_cons, List.map_nil, List.foldl_cons, List.foldl_nil, List.map_append]
    have : n = ((List.range n).map g).length := by simp
    unfold pyInsert
    rw [List.take_of_length_le (by simp), List.drop_of_length_le (by simp)]

theorem foldl_pyInsert_length (l : List (Nat × Nat)) (init : List Nat) :
    (l.foldl (fun order p => pyInsert order p.1 p.2) init).length = init.length + l.length := by
  induction l generalizing init with
  | nil => simp
  | cons a l ih =>
    rw [List.foldl_cons, ih]
    simp only [pyInsert, List.length_append, List.length_take, List.length_cons, List.length_drop]
    omega

theorem moveaxisOrder_length {n m : Nat} {dest : List Nat} (hd : dest.length = m) (hm : m ≤ n) :
    (moveaxisOrder n (List.range m) dest).length = n := by
  unfold moveaxisOrder
  rw [foldl_pyInsert_length, List.length_insertionSort, List.length_zip, hd, List.length_range, min_self]
  have : ((List.range n).filter (· ∉ List.range m)).length = n - m := by
    obtain ⟨k, rfl⟩ := Nat.exists_eq_add_of_le hm
    rw [List.range_add, List.filter_append, List.filter_eq_nil_iff.2 (by simp), List.filter_eq_self.2 (by simp)]
    simp
  omega

theorem moveaxisOrder_perm {n : Nat} {dest : List Nat} (h : dest.Perm (List.range n)) :
    moveaxisOrder n (List.range n) dest = (List.range n).map (fun k => dest.idxOf k) := by
  have hlen : dest.length = n := by simpa using h.length_eq
  have hnd : dest.Nodup := h.nodup_iff.2 List.nodup_range
  unfold moveaxisOrder
  have h0 : (List.range n).filter (· ∉ List.range n) = [] := by simp
  rw [h0]
  set l := dest.zip (List.range n) with hl
  set s := l.insertionSort (fun a b => a.1 ≤ b.1) with hs
  have hperm : s.Perm l := List.perm_insertionSort _ _
  have hsort : s.Pairwise (fun a b => a.1 ≤ b.1) := by
    haveI : IsTrans (Nat × Nat) (fun a b => a.1 ≤ b.1) := ⟨fun a b c => le_trans⟩
    haveI : Std.Total (fun (a b : Nat × Nat) => a.1 ≤ b.1) := ⟨fun a b => le_total _ _⟩
    exact List.pairwise_insertionSort _ _
  have hfst : s.map (·.1) = List.range n := by
    have p1 : (s.map (·.1)).Perm (List.range n) := by
      refine (hperm.map _).trans ?_
      rw [hl, List.map_fst_zip (by simp [hlen])]
      exact h
    refine List.Perm.eq_of_pairwise (le := fun a b => a ≤ b) ?_ ?_ ?_ p1
    · intro a b _ _ hab hba; exact le_antisymm hab hba
    · exact List.pairwise_map.2 hsort
    · exact List.pairwise_lt_range.imp (fun h => le_of_lt h)
  have hel : ∀ p ∈ s, p = (p.1, dest.idxOf p.1) := by
    intro p hp
    have hp' : p ∈ l := hperm.mem_iff.1 hp
    obtain ⟨i, hi, rfl⟩ := List.getElem_of_mem hp'
    simp only [hl, List.getElem_zip, List.getElem_range]
    rw [hnd.idxOf_getElem]
  have : s = (List.range n).map (fun k => (k, dest.idxOf k)) := by
    rw [← hfst, List.map_map]
    conv_lhs => rw [← List.map_id s]
    exact List.map_congr_left (fun p hp => hel p hp)
  rw [this]
  exact foldl_insert_map n _

theorem transpose_get {n : Nat} {dest : List Nat} (h : dest.Perm (List.range n)) (a : NDArr) (idx : List Nat) :
    (a.transpose ((List.range n).map (fun k => dest.idxOf k))).get idx = a.get (dest.map (fun k => idx.getD k 0)) := by
  have hlen : dest.length = n := by simpa using h.length_eq
  have hnd : dest.Nodup := h.nodup_iff.2 List.nodup_range
  unfold NDArr.transpose
  simp only [List.length_map, List.length_range]
  congr 1
  apply List.ext_getElem
  · simp [hlen]
  intro i hi hi'
  simp only [List.getElem_map, List.getElem_range]
  congr 1
  have hi2 : i < dest.length := by simpa using hi'
  have hd : dest[i] < n := by
    have := h.mem_iff.1 (List.getElem_mem hi2); simpa using this
  have hnd' : ((List.range n).map (fun k => dest.idxOf k)).Nodup := by
    refine List.Nodup.map_on ?_ List.nodup_range
    intro x hx y hy hxy
    have hx' : x ∈ dest := h.mem_iff.2 hx
    exact (List.idxOf_inj hx').1 hxy
  have : ((List.range n).map (fun k => dest.idxOf k))[dest[i]]'(by simpa using hd) = i := by
    simp only [List.getElem_map, List.getElem_range]
    exact hnd.idxOf_getElem i hi2
  conv_lhs => rw [← this]
  exact hnd'.idxOf_getElem _ _

theorem transpose_shape (a : NDArr) (order : List Nat) :
    (a.transpose order).shape = order.map (fun i => a.shape.getD i 0) := rfl

theorem pyIndex_ok {o : List String} {x : String} (h : x ∈ o) : pyIndex o x = .ok (o.idxOf x) := by
  unfold pyIndex
  simp [h]

theorem mapM_pyIndex {o t : List String} (h : ∀ x ∈ t, x ∈ o) : t.mapM (pyIndex o) = .ok (t.map (fun x => o.idxOf x)) :=
  mapM_ok_of_forall _ _ _ (fun x hx => pyIndex_ok (h x hx))

end Zfit.Bin
