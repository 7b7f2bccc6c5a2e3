import Verif.Start.Spec
import Verif.Param.GraphLemmas
import Verif.Common.Except
import Mathlib.Data.List.Nodup
import Mathlib.Tactic.Ring
import Mathlib.Tactic.Linarith

namespace Zfit.Start

open Zfit Zfit.Par

theorem assign_not_mem {l : List (Leaf × ℚ)} {x : Leaf} (h : x ∉ l.map (·.1)) (v : Vals) : assign v l x = v x := by
  unfold assign
  induction l generalizing v with
  | nil => rfl
  | cons p l ih =>
    simp only [List.map_cons, List.mem_cons, not_or] at h
    rw [List.foldl_cons, ih h.2, Function.update_of_ne h.1]

theorem assign_mem {l : List (Leaf × ℚ)} (hn : (l.map (·.1)).Nodup) {x : Leaf} {q : ℚ} (h : (x, q) ∈ l) (v : Vals) : assign v l x = q := by
  induction l generalizing v with
  | nil => cases h
  | cons p l ih =>
    rw [List.map_cons, List.nodup_cons] at hn
    show assign (Function.update v p.1 p.2) l x = q
    rcases List.mem_cons.1 h with rfl | h
    · rw [assign_not_mem hn.1]
      simp
    · exact ih hn.2 h _

theorem assignPars_ok {v v' : Vals} {l : List (Par × ℚ)} (h : assignPars v l = .ok v') :
    v' = assign v (l.map (fun p => (p.1.leaf, p.2))) ∧ ∀ p ∈ l, p.1.leaf.kind = .indep := by
  unfold assignPars at h
  split at h
  · rename_i hk
    exact ⟨(Except.ok.inj h).symm, by simpa using hk⟩
  · cases h

theorem assignPars_indep {v : Vals} {l : List (Par × ℚ)} (h : ∀ p ∈ l, p.1.leaf.kind = .indep) :
    assignPars v l = .ok (assign v (l.map (fun p => (p.1.leaf, p.2)))) := by
  unfold assignPars
  exact if_pos (by simpa using h)

theorem dictGet_mem {l : List (Leaf × ℚ)} {x : Leaf} {q : ℚ} (h : dictGet l x = some q) : (x, q) ∈ l := by
  unfold dictGet at h
  obtain ⟨⟨y, q'⟩, hp, rfl⟩ := Option.map_eq_some_iff.1 h
  have h1 := List.find?_some hp
  have h2 := List.mem_of_find?_eq_some hp
  simp only [decide_eq_true_eq] at h1
  subst h1
  exact h2

theorem dictGet_none {l : List (Leaf × ℚ)} {x : Leaf} (h : dictGet l x = none) : x ∉ l.map (·.1) := by
  unfold dictGet at h
  rw [Option.map_eq_none_iff, List.find?_eq_none] at h
  intro hx
  obtain ⟨p, hp, rfl⟩ := List.mem_map.1 hx
  exact h p hp (by simp)

theorem mem_unique {l : List (Leaf × ℚ)} (hn : (l.map (·.1)).Nodup) {x : Leaf} {a b : ℚ} (ha : (x, a) ∈ l) (hb : (x, b) ∈ l) : a = b := by
  rw [← assign_mem hn ha (fun _ => 0), assign_mem hn hb]

theorem resGet_ok {r : Res} {x : Leaf} {p : Leaf × ℚ} (h : r.get x = .ok p) : p.1 = x ∧ p ∈ r.params := by
  unfold Res.get at h
  split at h
  · rename_i q hq
    cases h
    exact ⟨rfl, dictGet_mem hq⟩
  · cases h

theorem resGet_error {r : Res} {x : Leaf} {e : Err} (h : r.get x = .error e) : e = .valueError ∧ x ∉ r.params.map (·.1) := by
  unfold Res.get at h
  split at h
  · cases h
  · rename_i hq
    cases h
    exact ⟨rfl, dictGet_none hq⟩

/-- What `assign_values(params, result)` does when it succeeds. -/
theorem assignResult_ok {v v' : Vals} {ps : List Leaf} {r : Res} (h : assignResult v ps r = .ok v') :
    (∀ x ∈ ps, x ∈ r.params.map (·.1)) ∧ (∀ x, x ∉ ps → v' x = v x) ∧
    (ps.Nodup → (r.params.map (·.1)).Nodup → ∀ x ∈ ps, ∀ q, (x, q) ∈ r.params → v' x = q) := by
  unfold assignResult at h
  obtain ⟨l, hl, h⟩ := bind_eq_ok.1 h
  rw [mapM_ok_iff] at hl
  have hkeys : l.map (·.1) = ps := by
    have hlen : ps.length = l.length := by simpa using congrArg List.length hl
    apply List.ext_getElem (by simp [hlen])
    intro i h1 h2
    have := congrArg (fun z => z[i]?) hl
    simp only [List.getElem?_map] at this
    simp only [List.length_map] at h1
    rw [List.getElem?_eq_getElem h2, List.getElem?_eq_getElem h1] at this
    simpa using (resGet_ok (Option.some.inj this)).1
  have hmem : ∀ p ∈ l, p ∈ r.params := by
    intro p hp
    have : Except.ok p ∈ ps.map r.get := hl ▸ List.mem_map_of_mem hp
    obtain ⟨x, hx, he⟩ := List.mem_map.1 this
    exact (resGet_ok he).2
  obtain ⟨rfl, -⟩ := assignPars_ok h
  have hid : (l.map (fun p => ((Par.node p.1 [], p.2) : Par × ℚ))).map (fun p => (p.1.leaf, p.2)) = l := by
    rw [List.map_map]
    conv_rhs => rw [← List.map_id l]
    rfl
  rw [hid]
  refine ⟨fun x hx => ?_, fun x hx => assign_not_mem (hkeys ▸ hx) v, fun hn hr x hx q hq => ?_⟩
  · rw [← hkeys] at hx
    obtain ⟨p, hp, rfl⟩ := List.mem_map.1 hx
    exact List.mem_map_of_mem (hmem p hp)
  · rw [← hkeys] at hx
    obtain ⟨⟨y, q'⟩, hp, rfl⟩ := List.mem_map.1 hx
    rw [mem_unique hr hq (hmem _ hp)]
    exact assign_mem (hkeys ▸ hn) hp v

theorem assignResult_succeeds {ps : List Leaf} {r : Res} (v : Vals) (h : ∀ x ∈ ps, x ∈ r.params.map (·.1)) (hi : ∀ x ∈ ps, x.kind = .indep) :
    ∃ v', assignResult v ps r = .ok v' := by
  have hg : ∀ x ∈ ps, r.get x = .ok (x, (dictGet r.params x).getD 0) := by
    intro x hx
    unfold Res.get
    rcases hd : dictGet r.params x with _ | q
    · exact (dictGet_none hd (h x hx)).elim
    · rfl
  have hl := mapM_ok_of_forall _ _ ps hg
  generalize ps.map (fun x => (x, (dictGet r.params x).getD 0)) = l at hl
  refine ⟨assign v ((l.map (fun p => ((Par.node p.1 [], p.2) : Par × ℚ))).map (fun p => (p.1.leaf, p.2))), ?_⟩
  unfold assignResult
  rw [hl]
  refine assignPars_indep ?_
  intro p hp
  obtain ⟨q, hq, rfl⟩ := List.mem_map.1 hp
  rw [mapM_ok_iff] at hl
  have : Except.ok q ∈ ps.map r.get := hl ▸ List.mem_map_of_mem hq
  obtain ⟨x, hx, he⟩ := List.mem_map.1 this
  have := (resGet_ok he).1
  show q.1.kind = .indep
  rw [this]
  exact hi x hx

theorem assignResult_missing {ps : List Leaf} {r : Res} (v : Vals) {x : Leaf} (hx : x ∈ ps) (h : x ∉ r.params.map (·.1)) :
    assignResult v ps r = .error .valueError := by
  have : ps.mapM r.get = .error .valueError := by
    induction ps with
    | nil => cases hx
    | cons y ps ih =>
      rw [List.mapM_cons]
      rcases hy : r.get y with e | p
      · rw [(resGet_error hy).1]; rfl
      · have hne : x ≠ y := by
          rintro rfl
          obtain ⟨h1, h2⟩ := resGet_ok hy
          exact h (h1 ▸ List.mem_map_of_mem h2)
        rcases List.mem_cons.1 hx with h' | h'
        · exact (hne h').elim
        · rw [except_bind_ok, ih h']; rfl
  unfold assignResult
  rw [this]
  rfl

theorem freshLeaf_nodup (n fresh : Nat) : ((List.range n).map (fun i => freshLeaf (fresh + i))).Nodup := by
  refine List.Nodup.map ?_ List.nodup_range
  intro a b h
  have := congrArg Leaf.id h
  simp only [freshLeaf] at this
  omega

theorem mem_free {l : LossO} {x : Leaf} : x ∈ l.free ↔ x ∈ l.params ∧ x.floating = true := by
  unfold LossO.free
  simp

end Zfit.Start
