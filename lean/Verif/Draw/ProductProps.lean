import Verif.Draw.Model
import Verif.Common.Except
import Mathlib.Tactic.FinCases
import Mathlib.Algebra.Order.Field.Rat

/-!
# Properties of `sample` of a product

* C147 `product_sample_partial`, `product_sample_disjoint`, `product_sample_order_violated`, `product_sample_shared_violated`
* C148 `product_sample_limits_partial`, `product_sample_limits_violated`
-/

namespace Zfit.Draw

open Zfit Zfit.Functor

variable {R V : Type}

/-- The sample of the group of factors `g`: `n` rows with one number for each of its observables. -/
def Draws (n : ℕ) (draw : List (Factor R V) → List (List R)) (g : List (Factor R V)) : Prop :=
  (draw g).length = n ∧ ∀ r ∈ draw g, r.length = (groupObs g).length

/-- The rows side by side: row `j` consists of the rows `j` of the groups. -/
theorem hstack_row (n : ℕ) (ts : List (List (List R))) (hne : ts ≠ []) (hlen : ∀ t ∈ ts, t.length = n) :
    (hstack ts).length = n ∧ ∀ (j : ℕ), j < n → (hstack ts)[j]? = some (ts.flatMap (fun t => (t[j]?).getD [])) := by
  induction ts with
  | nil => exact absurd rfl hne
  | cons t ts ih =>
    cases ts with
    | nil =>
      have h := hlen t List.mem_cons_self
      refine ⟨h, fun j hj => ?_⟩
      have : j < t.length := h ▸ hj
      simp [hstack, List.getElem?_eq_getElem this]
    | cons t' ts =>
      have h := hlen t List.mem_cons_self
      obtain ⟨h1, h2⟩ := ih (by simp) (fun u hu => hlen u (List.mem_cons_of_mem _ hu))
      refine ⟨by simp [hstack, h, h1], fun j hj => ?_⟩
      have hj' : j < t.length := h ▸ hj
      show (List.zipWith (· ++ ·) t (hstack (t' :: ts)))[j]? = _
      rw [List.getElem?_zipWith, h2 j hj, List.flatMap_cons (xs := t' :: ts), List.getElem?_eq_getElem hj']
      rfl

/-- The entry of a row made of parts: the part that has the observable. -/
theorem entry_of_parts (parts : List (List String × List R)) (hl : ∀ p ∈ parts, p.2.length = p.1.length)
    (hnd : (parts.flatMap (·.1)).Nodup) {p : List String × List R} (hp : p ∈ parts) {o : String} (ho : o ∈ p.1) :
    (parts.flatMap (·.2))[(parts.flatMap (·.1)).idxOf o]? = p.2[p.1.idxOf o]? := by
  induction parts with
  | nil => cases hp
  | cons q parts ih =>
    rw [List.flatMap_cons] at hnd
    rw [List.flatMap_cons, List.flatMap_cons]
    obtain ⟨_, hnd2, hdis⟩ := List.nodup_append.1 hnd
    have hq := hl q List.mem_cons_self
    by_cases h : o ∈ q.1
    · have hpq : p = q := by
        rcases List.mem_cons.1 hp with hp | hp
        · exact hp
        · exact absurd rfl (hdis o h o (List.mem_flatMap.2 ⟨p, hp, ho⟩))
      subst hpq
      have hlt := List.idxOf_lt_length_of_mem h
      rw [List.idxOf_append_of_mem h, List.getElem?_append_left (by omega)]
    · have hp' : p ∈ parts := by
        rcases List.mem_cons.1 hp with rfl | hp
        · exact absurd ho h
        · exact hp
      rw [List.idxOf_append_of_notMem h, List.getElem?_append_right (by omega), hq, Nat.add_sub_cancel_left]
      exact ih (fun r hr => hl r (List.mem_cons_of_mem _ hr)) hnd2 hp'

/-- C147, the part that holds: if the observables of the product are in the order of the groups (the factors that share no
observable, then the others) and nothing is outside the limits, then the sample has `n` events and the column of each
observable is that of the sample of its group, row by row. Missing from the full claim: the cases of `product_sample_order_violated`,
`product_sample_shared_violated`. -/
theorem product_sample_partial (n : ℕ) (obs : List String) (inside : List R → Bool) (draw : List (Factor R V) → List (List R))
    (fs : List (Factor R V)) (gs : List (List (Factor R V))) (hg : groups fs = some gs)
    (hobs : gs.flatMap groupObs = obs) (hnd : obs.Nodup) (hd : ∀ g ∈ gs, Draws n draw g)
    (hin : ∀ r ∈ hstack (gs.map draw), inside r = true) :
    ∃ t, sampleProduct obs inside draw fs = .ok t ∧ t.rows.length = n
      ∧ ∀ g ∈ gs, ∀ o ∈ groupObs g, t.column o = Table.column ⟨groupObs g, draw g⟩ o := by
  have hne : gs ≠ [] := by
    intro h
    subst h
    unfold groups at hg
    dsimp only at hg
    split at hg
    · simp at hg
    · split at hg
      · rename_i h
        simp only [Option.some.injEq, List.map_eq_nil_iff] at hg
        rw [hg] at h
        simp at h
      · cases hg
  obtain ⟨hlen, hrow⟩ := hstack_row n (gs.map draw) (by simpa using hne) (by
    intro t ht
    obtain ⟨g, hgm, rfl⟩ := List.mem_map.1 ht
    exact (hd g hgm).1)
  have hfil : (hstack (gs.map draw)).filter inside = hstack (gs.map draw) := List.filter_eq_self.2 hin
  refine ⟨⟨obs, hstack (gs.map draw)⟩, ?_, hlen, fun g hgm o ho => ?_⟩
  · simp [sampleProduct, productSample, hg, except_bind_ok, except_pure, hfil]
  · unfold Table.column
    dsimp only
    refine List.ext_getElem? (fun j => ?_)
    rw [List.getElem?_map, List.getElem?_map]
    by_cases hj : j < n
    · rw [hrow j hj]
      have hjg : j < (draw g).length := (hd g hgm).1 ▸ hj
      rw [List.getElem?_eq_getElem hjg]
      simp only [Option.map_some, Option.some.injEq]
      subst hobs
      have := entry_of_parts (gs.map (fun g => (groupObs g, ((draw g)[j]?).getD []))) (by
          intro p hp
          obtain ⟨g', hg', rfl⟩ := List.mem_map.1 hp
          have hj' : j < (draw g').length := (hd g' hg').1 ▸ hj
          simp only [List.getElem?_eq_getElem hj', Option.getD_some]
          exact (hd g' hg').2 _ (List.getElem_mem _))
        (by simpa [List.flatMap_map] using hnd) (List.mem_map.2 ⟨g, hgm, rfl⟩) (o := o) ho
      simp only [List.flatMap_map, List.getElem?_eq_getElem hjg, Option.getD_some] at this ⊢
      exact this
    · rw [List.getElem?_eq_none (by omega), List.getElem?_eq_none (by rw [(hd g hgm).1]; omega)]
      rfl

theorem groupObs_single (f : Factor R V) (h : f.obs.Nodup) : groupObs [f] = f.obs := by
  have key : ∀ (os acc : List String), os.Nodup → (∀ o ∈ os, o ∉ acc) →
      os.foldl (fun acc o => if o ∈ acc then acc else acc ++ [o]) acc = acc ++ os := by
    intro os
    induction os with
    | nil => intro acc _ _; simp
    | cons o os ih =>
      intro acc hn hd
      obtain ⟨h1, h2⟩ := List.nodup_cons.1 hn
      rw [List.foldl_cons, if_neg (hd o List.mem_cons_self), ih _ h2 (fun p hp hm => ?_), List.append_assoc]
      · rfl
      · rcases List.mem_append.1 hm with hm | hm
        · exact hd p (List.mem_cons_of_mem _ hp) hm
        · rw [List.mem_singleton] at hm
          exact h1 (hm ▸ hp)
  unfold groupObs productObs commonObs
  simpa using key f.obs [] h (by simp)

/-- C147 for a product without common observables, and without `obs` at its creation (its observables are then those of the
factors, one after the other). -/
theorem product_sample_disjoint (n : ℕ) (inside : List R → Bool) (draw : List (Factor R V) → List (List R))
    (fs : List (Factor R V)) (hne : fs ≠ []) (hobs : ∀ f ∈ fs, f.obs ≠ []) (hnd : (fs.flatMap (·.obs)).Nodup)
    (hd : ∀ f ∈ fs, Draws n draw [f]) (hin : ∀ r ∈ hstack (fs.map (fun f => draw [f])), inside r = true) :
    ∃ t, sampleProduct (fs.flatMap (·.obs)) inside draw fs = .ok t ∧ t.rows.length = n
      ∧ ∀ f ∈ fs, ∀ o ∈ f.obs, t.column o = Table.column ⟨f.obs, draw [f]⟩ o := by
  have hsh : sharedObs fs = [] := by
    unfold sharedObs
    rw [List.filter_eq_nil_iff]
    intro o ho
    have := List.nodup_iff_count_le_one.1 hnd o
    simpa using this
  have hdis : fs.filter (·.isDisjoint (sharedObs fs)) = fs := by
    rw [List.filter_eq_self]
    intro f _
    simp [hsh, Factor.isDisjoint]
  have hsame : fs.filter (fun f => !f.isDisjoint (sharedObs fs)) = [] := by
    rw [List.filter_eq_nil_iff]
    intro f _
    simp [hsh, Factor.isDisjoint]
  have hg : groups fs = some (fs.map (fun f => [f])) := by
    unfold groups
    dsimp only
    rw [hdis, hsame]
    cases fs with
    | nil => exact absurd rfl hne
    | cons f fs => simp
  have hno : ∀ f ∈ fs, f.obs.Nodup := fun f hf => (List.nodup_flatMap.1 hnd).1 f hf
  have hfl : (fs.map (fun f => [f])).flatMap groupObs = fs.flatMap (·.obs) := by
    rw [List.flatMap_map]
    exact List.flatMap_congr (fun f hf => groupObs_single f (hno f hf))
  obtain ⟨t, ht, hn, hc⟩ := product_sample_partial n (fs.flatMap (·.obs)) inside draw fs _ hg hfl hnd
    (fun g hgm => by
      obtain ⟨f, hf, rfl⟩ := List.mem_map.1 hgm
      exact hd f hf)
    (by simpa [List.map_map, Function.comp_def] using hin)
  refine ⟨t, ht, hn, fun f hf o ho => ?_⟩
  have := hc [f] (List.mem_map.2 ⟨f, hf, rfl⟩) o (by rw [groupObs_single f (hno f hf)]; exact ho)
  rwa [groupObs_single f (hno f hf)] at this

/-- A factor in one observable; its values do not matter here. -/
def factor (o : String) : Factor ℚ Unit := ⟨[o], fun _ => ()⟩

/-- What is drawn for "x" is 1, for "y" it is 2. -/
def draw12 (g : List (Factor ℚ Unit)) : List (List ℚ) := if groupObs g = ["x"] then [[1]] else [[2]]

/-- The hypotheses of `product_sample_disjoint` are met. -/
example : ∃ t, sampleProduct ["x", "y"] (fun _ => true) draw12 [factor "x", factor "y"] = .ok t ∧ t.rows.length = 1
    ∧ ∀ f ∈ [factor "x", factor "y"], ∀ o ∈ f.obs, t.column o = Table.column ⟨f.obs, draw12 [f]⟩ o :=
  product_sample_disjoint 1 (fun _ => true) draw12 [factor "x", factor "y"] (by simp) (by simp [factor]) (by decide)
    (fun f hf => by
      rcases List.mem_cons.1 hf with rfl | hf
      · exact ⟨by decide, by decide⟩
      · rw [List.mem_singleton] at hf
        subst hf
        exact ⟨by decide, by decide⟩) (by simp)

/-- C147 is false if the product is created with its observables in another order: the columns of the sample get the names of the
others.  `ProductPDF([px, py], obs=["y", "x"])` has what was drawn for "x" in the column "y". -/
theorem product_sample_order_violated :
    ∃ t, sampleProduct ["y", "x"] (fun _ => true) draw12 [factor "x", factor "y"] = .ok t
      ∧ t.column "x" = Table.column ⟨["y"], draw12 [factor "y"]⟩ "y"
      ∧ t.column "x" ≠ Table.column ⟨["x"], draw12 [factor "x"]⟩ "x" := by
  refine ⟨⟨["y", "x"], [[1, 2]]⟩, by rfl, by decide, by decide⟩

/-- C147 is false also without `obs` if some factors share observables and others do not: the former are moved to the end.
`ProductPDF([px, qx, py])` has the observables "x" and "y", and what was drawn for "y" is in the column "x". -/
theorem product_sample_shared_violated :
    productObs [factor "x", factor "x", factor "y"] = ["x", "y"]
    ∧ ∃ t, sampleProduct (productObs [factor "x", factor "x", factor "y"]) (fun _ => true) draw12
          [factor "x", factor "x", factor "y"] = .ok t
      ∧ t.column "x" = Table.column ⟨["y"], draw12 [factor "y"]⟩ "y"
      ∧ t.column "x" ≠ Table.column ⟨["x"], draw12 [factor "x", factor "x"]⟩ "x" := by
  refine ⟨by decide, ⟨["x", "y"], [[2, 1]]⟩, by rfl, by decide, by decide⟩

/-! ## C148 -/

/-- C148, the part that holds: with limits that are a box (each observable on its own) and the columns in the right order, each
group being sampled in its part of the limits, nothing is lost: `n` events. Missing from the full claim: the cases of
`product_sample_limits_violated`. -/
theorem product_sample_limits_partial (n : ℕ) (lim : String → R → Bool) (draw : List (Factor R V) → List (List R))
    (fs : List (Factor R V)) (gs : List (List (Factor R V))) (hg : groups fs = some gs)
    (hd : ∀ g ∈ gs, Draws n draw g)
    (hin : ∀ g ∈ gs, ∀ r ∈ draw g, ((groupObs g).zip r).all (fun c => lim c.1 c.2) = true) :
    ∃ t, sampleProduct (gs.flatMap groupObs) (fun r => ((gs.flatMap groupObs).zip r).all (fun c => lim c.1 c.2)) draw fs = .ok t
      ∧ t.rows.length = n := by
  have hne : gs ≠ [] := by
    intro h
    subst h
    unfold groups at hg
    dsimp only at hg
    split at hg
    · simp at hg
    · split at hg
      · rename_i h
        simp only [Option.some.injEq, List.map_eq_nil_iff] at hg
        rw [hg] at h
        simp at h
      · cases hg
  obtain ⟨hlen, hrow⟩ := hstack_row n (gs.map draw) (by simpa using hne) (by
    intro t ht
    obtain ⟨g, hgm, rfl⟩ := List.mem_map.1 ht
    exact (hd g hgm).1)
  have hfil : (hstack (gs.map draw)).filter (fun r => ((gs.flatMap groupObs).zip r).all (fun c => lim c.1 c.2))
      = hstack (gs.map draw) := by
    rw [List.filter_eq_self]
    intro r hr
    obtain ⟨j, hj, rfl⟩ := List.getElem_of_mem hr
    have h1 := hrow j (hlen ▸ hj)
    rw [List.getElem?_eq_getElem hj, Option.some.injEq] at h1
    rw [h1]
    have hjn : j < n := hlen ▸ hj
    clear h1 hr hg hne hlen hrow hj
    induction gs with
    | nil => simp
    | cons g gs ih =>
      have hjg : j < (draw g).length := (hd g List.mem_cons_self).1 ▸ hjn
      rw [List.flatMap_cons, List.map_cons, List.flatMap_cons, List.getElem?_eq_getElem hjg, Option.getD_some,
        List.zip_append ((hd g List.mem_cons_self).2 _ (List.getElem_mem hjg)).symm, List.all_append,
        hin g List.mem_cons_self _ (List.getElem_mem hjg),
        ih (fun g' h' => hd g' (List.mem_cons_of_mem _ h')) (fun g' h' => hin g' (List.mem_cons_of_mem _ h'))]
      rfl
  exact ⟨⟨gs.flatMap groupObs, hstack (gs.map draw)⟩, by simp [sampleProduct, productSample, hg, except_bind_ok, except_pure, hfil], hlen⟩

/-- The hypotheses of `product_sample_limits_partial` are met. -/
example : ∃ t, sampleProduct ["x", "y"] (fun r => ((["x", "y"]).zip r).all (fun c => decide (c.2 ≤ 3))) draw12
    [factor "x", factor "y"] = .ok t ∧ t.rows.length = 1 :=
  product_sample_limits_partial 1 (fun _ v => decide (v ≤ 3)) draw12 [factor "x", factor "y"] [[factor "x"], [factor "y"]] (by rfl)
    (fun g hg => by
      rcases List.mem_cons.1 hg with rfl | hg
      · exact ⟨by decide, by decide⟩
      · rw [List.mem_singleton] at hg
        subst hg
        exact ⟨by decide, by decide⟩)
    (fun g hg => by
      rcases List.mem_cons.1 hg with rfl | hg
      · decide
      · rw [List.mem_singleton] at hg
        subst hg
        decide)

/-- Two boxes: both observables below 1, or both above 2. -/
def twoBoxes (r : List ℚ) : Bool := r.all (fun v => decide (v ≤ 1)) || r.all (fun v => decide (2 ≤ v))

/-- C148 is false for limits that are not a box: each factor is sampled in the projection of the limits on its observables.  Here the
limits are `[0, 1] × [0, 1]` and `[2, 3] × [2, 3]`; "x" and "y" are drawn from `[0, 1]` and `[2, 3]` on their own, and of the one
event that was asked for, none is left. -/
theorem product_sample_limits_violated :
    (∃ r ∈ draw12 [factor "x"], ∃ r', twoBoxes (r ++ r') = true) ∧ (∃ r ∈ draw12 [factor "y"], ∃ r', twoBoxes (r' ++ r) = true)
    ∧ (∀ g ∈ [[factor "x"], [factor "y"]], Draws 1 draw12 g)
    ∧ ∃ t, sampleProduct ["x", "y"] twoBoxes draw12 [factor "x", factor "y"] = .ok t ∧ t.rows.length = 0 := by
  refine ⟨⟨[1], by decide, [1], by decide⟩, ⟨[2], by decide, [2], by decide⟩, fun g hg => ?_, ⟨["x", "y"], []⟩, by rfl, rfl⟩
  rcases List.mem_cons.1 hg with rfl | hg
  · exact ⟨by decide, by decide⟩
  · rw [List.mem_singleton] at hg
    subst hg
    exact ⟨by decide, by decide⟩

end Zfit.Draw
