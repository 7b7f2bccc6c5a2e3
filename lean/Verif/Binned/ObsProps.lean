import Verif.Binned.ObsLemmas

/-! C22: reordering binned data. -/

namespace Zfit.Bin

open Zfit

variable {h : Holder} {t : List String}

/-- The general result of `with_obs` for a permutation of the observables. -/
theorem withObs_perm (hp : h.Proper) (hne : h.space.obs ≠ []) (ht : t.Perm h.space.obs) :
    ∃ b bv, h.withObs t = Holder.make ⟨t.map (axisOf h.space)⟩ b bv ∧
      b.shape = h.space.obs.map (fun x => h.values.shape.getD (t.idxOf x) 0) ∧
      (∀ idx, b.get idx = h.values.get (t.map (fun x => idx.getD (h.space.obs.idxOf x) 0))) ∧
      (bv = none ↔ h.variances = none) ∧
      ∀ v v', h.variances = some v → bv = some v' → v'.shape = b.shape ∧
        ∀ idx, v'.get idx = v.get (t.map (fun x => idx.getD (h.space.obs.idxOf x) 0)) := by
  obtain ⟨hn, hs, hv⟩ := hp
  have hnames : (⟨t.map (axisOf h.space)⟩ : BSpace).obs = t := by
    unfold BSpace.obs
    rw [List.map_map]
    conv_rhs => rw [← List.map_id t]
    exact List.map_congr_left (fun x hx => (axis_eq (ht.mem_iff.1 hx)).2.1)
  have hlen : h.values.shape.length = h.space.obs.length := by rw [hs]; simp [BSpace.obs]
  obtain ⟨b, hb, hb1, hb2⟩ := moveAxisObs_perm hn ht h.values hlen
  unfold Holder.withObs
  rw [withObs_space_perm ht hne, except_bind_ok, hnames, hb, except_bind_ok]
  cases hvv : h.variances with
  | none =>
    refine ⟨b, none, rfl, hb1, hb2, by simp, ?_⟩
    intro v v' h1; cases h1
  | some v =>
    have hl2 : v.shape.length = h.space.obs.length := by rw [hv v hvv, hlen]
    obtain ⟨c, hc, hc1, hc2⟩ := moveAxisObs_perm hn ht v hl2
    refine ⟨b, some c, ?_, hb1, hb2, by simp, ?_⟩
    · simp only [moveAxisObs?, hc]; rfl
    · rintro _ _ ⟨⟩ ⟨⟩
      exact ⟨by rw [hc1, hb1, hv v hvv], hc2⟩

theorem obs_of_make {s : BSpace} {a : NDArr} {v : Option NDArr} {h' : Holder} (hm : Holder.make s a v = .ok h') :
    h'.space = s ∧ h'.values = a ∧ h'.variances = v := by
  unfold Holder.make at hm
  obtain ⟨_, _, hm⟩ := bind_eq_ok.1 hm
  split at hm
  · cases hm
  · split at hm
    · cases hm
    · cases hm; exact ⟨rfl, rfl, rfl⟩

theorem make_ok {s : BSpace} {a : NDArr} {v : Option NDArr} (hs : a.shape = s.axes.map (fun a => a.edges.length - 1))
    (hv : ∀ x, v = some x → x.shape = a.shape) : Holder.make s a v = .ok ⟨s, a, v⟩ := by
  have h2 : s.axes.length = a.shape.length := by rw [hs]; simp
  have h3 : (s.axes.map (fun a => a.edges.length)).map (· - 1) = a.shape := by rw [hs, List.map_map]; rfl
  unfold Holder.make
  cases v with
  | none => simp only [except_bind_ok]; rw [if_neg (fun h => h h2), if_neg (fun h => h h3)]
  | some x =>
    have := hv x rfl
    simp only [this, ne_eq, not_true_eq_false, if_false, except_bind_ok]
    rw [if_neg (fun h => h h2), if_neg (fun h => h h3)]

/-- **C22 (partial).** If the new order arises from the old one by exchanging disjoint pairs of observables, then
`with_obs` succeeds, the axes of the result are those of the original in the requested order, and every bin holds the
content and the variance it had before.  Missing: the other permutations (see `with_obs_cycle_violated`). -/
theorem with_obs_keeps_contents_partial (hp : h.Proper) (hne : h.space.obs ≠ []) (ht : t.Perm h.space.obs)
    (hx : Exchanges h.space.obs t) :
    ∃ h', h.withObs t = .ok h' ∧ h'.space.obs = t ∧ h'.space.axes.Perm h.space.axes ∧ SameContents h h' := by
  obtain ⟨b, bv, hw, hb1, hb2, hv0, hv1⟩ := withObs_perm hp hne ht
  obtain ⟨hn, hs, hv⟩ := hp
  have htn : t.Nodup := ht.nodup_iff.2 hn
  have hlen : t.length = h.space.obs.length := ht.length_eq
  have hol : h.space.obs.length = h.space.axes.length := by simp [BSpace.obs]
  have hnames : (⟨t.map (axisOf h.space)⟩ : BSpace).obs = t := by
    unfold BSpace.obs
    rw [List.map_map]
    conv_rhs => rw [← List.map_id t]
    exact List.map_congr_left (fun x hx => (axis_eq (ht.mem_iff.1 hx)).2.1)
  -- the key fact: position of t[i] in o has t = o[i]
  have key : ∀ i (hi : i < t.length), t[h.space.obs.idxOf t[i]]? = h.space.obs[i]? := by
    intro i hi
    have hm : t[i] ∈ h.space.obs := ht.mem_iff.1 (List.getElem_mem hi)
    have hj : h.space.obs.idxOf t[i] < h.space.obs.length := List.idxOf_lt_length_iff.2 hm
    apply hx _ i hj
    rw [List.getElem?_eq_getElem hi, List.getElem?_eq_getElem hj, List.getElem_idxOf]
  have hmap : ∀ f : String → Nat, t.map (fun x => (t.map f).getD (h.space.obs.idxOf x) 0) = h.space.obs.map f := by
    intro f
    apply List.ext_getElem (by simp [hlen])
    intro i h1 h2
    have hi : i < t.length := by simpa using h1
    simp only [List.getElem_map, List.getD_eq_getElem?_getD, List.getElem?_map, key i hi]
    rw [List.getElem?_eq_getElem (by omega)]
    rfl
  have hshape : b.shape = (t.map (axisOf h.space)).map (fun a => a.edges.length - 1) := by
    rw [hb1]
    apply List.ext_getElem (by simp [hlen])
    intro k h1 h2
    have hk : k < h.space.obs.length := by simpa using h1
    have hm : h.space.obs[k] ∈ t := ht.mem_iff.2 (List.getElem_mem hk)
    have hi : t.idxOf h.space.obs[k] < t.length := List.idxOf_lt_length_iff.2 hm
    have := hx k (t.idxOf h.space.obs[k]) hk
      (by rw [List.getElem?_eq_getElem hi, List.getElem?_eq_getElem hk, List.getElem_idxOf])
    rw [List.getElem?_eq_getElem (by omega), List.getElem?_eq_getElem (by omega)] at this
    have this := Option.some.inj this
    have hi' : t.idxOf h.space.obs[k] < h.space.axes.length := by omega
    simp only [List.getElem_map, this, hs]
    rw [show h.space.obs[t.idxOf h.space.obs[k]]'(by omega) = (h.space.axes[t.idxOf h.space.obs[k]]).name by
      simp [BSpace.obs]]
    rw [axisOf_getElem hn hi']
    rw [List.getD_eq_getElem?_getD, List.getElem?_map, List.getElem?_eq_getElem hi']
    rfl
  have hm := make_ok (s := ⟨t.map (axisOf h.space)⟩) (a := b) (v := bv) hshape (by
    intro x hxx
    cases hvv : h.variances with
    | none => rw [hv0.2 hvv] at hxx; cases hxx
    | some v => exact (hv1 v x hvv hxx).1)
  refine ⟨_, by rw [hw, hm], hnames, ?_, ?_, hv0, ?_⟩
  · have hax : h.space.obs.map (axisOf h.space) = h.space.axes := by
      apply List.ext_getElem (by simp [BSpace.obs])
      intro i h1 h2
      have := axisOf_getElem hn h2
      simpa [BSpace.obs] using this
    rw [← hax]
    exact ht.map _
  · intro f
    unfold byName
    rw [hnames, hb2, hmap]
  · intro v v' h1 h2 f
    unfold byName
    rw [hnames, (hv1 v v' h1 h2).2, hmap]

theorem exchanges_of_le_two {o t : List String} (ho : o.Nodup) (ht : t.Perm o) (h2 : o.length ≤ 2) : Exchanges o t := by
  match o, h2, ho, ht with
  | [], _, _, ht => intro i j hi; simp at hi
  | [a], _, _, ht =>
    have := List.perm_singleton.1 ht
    subst this
    intro i j hi hij
    have : i = 0 := by simpa using hi
    subst this
    cases j with
    | zero => rfl
    | succ j => simp at hij
  | [a, b], _, ho, ht =>
    have hab : a ≠ b := by simpa using ho
    have ht' : t = [a, b] ∨ t = [b, a] := by
      have hl := ht.length_eq
      match t, hl, ht with
      | [c, d], _, ht =>
        have hc : c ∈ [a, b] := ht.mem_iff.1 (by simp)
        have hd : d ∈ [a, b] := ht.mem_iff.1 (by simp)
        have hcd : c ≠ d := by simpa using ht.nodup_iff.2 ho
        simp only [List.mem_cons, List.not_mem_nil, or_false] at hc hd
        rcases hc with rfl | rfl <;> rcases hd with rfl | rfl <;> simp_all
    intro i j hi hij
    have hi' : i = 0 ∨ i = 1 := by simp at hi; omega
    rcases ht' with rfl | rfl
    · rcases j with _ | _ | j <;> rcases hi' with rfl | rfl <;> simp_all
    · rcases j with _ | _ | j <;> rcases hi' with rfl | rfl <;> simp_all

/-- **C22 for one and two observables**: there the property holds without restriction. Missing from the full claim: the cases of
`with_obs_cycle_violated`, `with_obs_cycle_raises_violated`. -/
theorem with_obs_two_axes_partial (hp : h.Proper) (hne : h.space.obs ≠ []) (ht : t.Perm h.space.obs)
    (h2 : h.space.obs.length ≤ 2) :
    ∃ h', h.withObs t = .ok h' ∧ h'.space.obs = t ∧ h'.space.axes.Perm h.space.axes ∧ SameContents h h' :=
  with_obs_keeps_contents_partial hp hne ht (exchanges_of_le_two hp.1 ht h2)

/-- Whenever `with_obs` succeeds for a permutation of the observables, the entry of the result in a bin is the entry
of the original with the *inverse* permutation applied to the axes. -/
theorem with_obs_applies_inverse (hp : h.Proper) (hne : h.space.obs ≠ []) (ht : t.Perm h.space.obs) {h' : Holder}
    (hw : h.withObs t = .ok h') (f : String → Nat) :
    byName h'.space h'.values f = h.values.get (t.map (fun x => f (t.getD (h.space.obs.idxOf x) ""))) := by
  obtain ⟨b, bv, hw', hb1, hb2, _⟩ := withObs_perm hp hne ht
  rw [hw'] at hw
  obtain ⟨h1, h2, h3⟩ := obs_of_make hw
  have hnames : (⟨t.map (axisOf h.space)⟩ : BSpace).obs = t := by
    unfold BSpace.obs
    rw [List.map_map]
    conv_rhs => rw [← List.map_id t]
    exact List.map_congr_left (fun x hx => (axis_eq (ht.mem_iff.1 hx)).2.1)
  unfold byName
  rw [h1, h2, hnames, hb2]
  congr 1
  apply List.map_congr_left
  intro x hx
  have : h.space.obs.idxOf x < t.length := by
    rw [ht.length_eq]; exact List.idxOf_lt_length_iff.2 (ht.mem_iff.1 hx)
  simp [List.getD_eq_getElem?_getD, List.getElem?_eq_getElem this]

/-- Asking for a part of the observables raises. -/
theorem with_obs_subset_raises (hp : h.Proper) (hn : t.Nodup) (hsub : ∀ x ∈ t, x ∈ h.space.obs)
    (hne : t ≠ []) (hlt : t.length < h.space.obs.length) :
    h.withObs t = .error .shapeIncompatible := by
  obtain ⟨hnd, hs, hv⟩ := hp
  unfold Holder.withObs BSpace.withObs
  have hany : t.any (· ∈ h.space.obs) = true := by
    obtain ⟨x, hx⟩ := List.exists_mem_of_ne_nil _ hne
    simp only [List.any_eq_true, decide_eq_true_eq]
    exact ⟨x, hx, hsub x hx⟩
  have hnames : (⟨t.map (axisOf h.space)⟩ : BSpace).obs = t := by
    unfold BSpace.obs
    rw [List.map_map]
    conv_rhs => rw [← List.map_id t]
    exact List.map_congr_left (fun x hx => (axis_eq (hsub x hx)).2.1)
  rw [if_neg (fun h => h hany), List.filter_eq_self.2 (by simpa using hsub),
    mapM_ok_of_forall _ (axisOf h.space) _ (fun x hx => (axis_eq (hsub x hx)).1)]
  simp only [except_bind_ok, except_pure, hnames]
  unfold moveAxisObs NDArr.moveaxis
  have hdn : (t.map (fun x => h.space.obs.idxOf x)).Nodup := by
    refine List.Nodup.map_on ?_ hn
    intro x hx y hy hxy
    exact (List.idxOf_inj (hsub x hx)).1 hxy
  have hl : h.values.shape.length = h.space.obs.length := by rw [hs]; simp [BSpace.obs]
  rw [mapM_pyIndex hsub, except_bind_ok, if_pos hdn, except_bind_ok]
  have hrank : ∀ v : NDArr, v.shape = h.values.shape → (t.map (axisOf h.space)).length ≠
      (v.transpose (moveaxisOrder v.shape.length (List.range t.length) (t.map (fun x => h.space.obs.idxOf x)))).shape.length := by
    intro v hvs
    rw [transpose_shape, List.length_map, List.length_map, moveaxisOrder_length (by simp) (by rw [hvs]; omega), hvs]
    omega
  cases hvv : h.variances with
  | none =>
    simp only [moveAxisObs?, except_bind_ok]
    unfold Holder.make
    simp only [except_bind_ok]
    rw [if_pos (hrank _ rfl)]
  | some v =>
    simp only [moveAxisObs?]
    unfold moveAxisObs NDArr.moveaxis
    rw [mapM_pyIndex hsub, except_bind_ok, if_pos hdn]
    simp only [Except.map, except_bind_ok]
    unfold Holder.make
    have := hv v hvv
    have hr := hrank _ rfl
    rw [transpose_shape] at hr
    simp only [transpose_shape, this, ne_eq, not_true_eq_false, if_false, except_bind_ok]
    rw [if_pos hr]

/-! ### Witnesses -/

/-- A histogram with three axes of two bins each; the entry at `[i, j, k]` is `4 i + 2 j + k`. -/
def cube : Holder :=
  ⟨⟨[⟨"x", [0, 1, 2]⟩, ⟨"y", [0, 1, 2]⟩, ⟨"z", [0, 1, 2]⟩]⟩,
   ⟨[2, 2, 2], fun idx => 4 * (idx.getD 0 0 : Rat) + 2 * (idx.getD 1 0 : Rat) + (idx.getD 2 0 : Rat)⟩, none⟩

/-- A histogram with three axes of different sizes. -/
def brick : Holder :=
  ⟨⟨[⟨"x", [0, 1]⟩, ⟨"y", [0, 1, 2]⟩, ⟨"z", [0, 1, 2, 3]⟩]⟩, ⟨[1, 2, 3], fun _ => 1⟩, none⟩

theorem cube_proper : cube.Proper := ⟨by decide, by decide, by rintro v ⟨⟩⟩
theorem brick_proper : brick.Proper := ⟨by decide, by decide, by rintro v ⟨⟩⟩

/-- non-vacuity: exchanging the first and the last of three axes -/
example : ∃ h', brick.withObs ["z", "y", "x"] = .ok h' ∧ h'.space.obs = ["z", "y", "x"] ∧
    h'.space.axes.Perm brick.space.axes ∧ SameContents brick h' := by
  refine with_obs_keeps_contents_partial brick_proper (by decide) (by decide) ?_
  intro i j hi hij
  have hi : i < 3 := hi
  have : i = 0 ∨ i = 1 ∨ i = 2 := by omega
  have hb : brick.space.obs = ["x", "y", "z"] := rfl
  rw [hb] at hij ⊢
  rcases j with _ | _ | _ | j <;> rcases this with rfl | rfl | rfl <;> simp_all

/-- **C22 is false**: a cyclic permutation of three axes of equal size is carried out in the wrong direction, without
an error.  In the bin with index 1 along `x` and 0 along the others the original has content 4, the result 2. -/
theorem with_obs_cycle_violated :
    ∃ h', cube.withObs ["y", "z", "x"] = .ok h' ∧ h'.space.obs = ["y", "z", "x"] ∧
      byName cube.space cube.values (fun x => if x = "x" then 1 else 0) = 4 ∧
      byName h'.space h'.values (fun x => if x = "x" then 1 else 0) = 2 := by
  have key : (cube.withObs ["y", "z", "x"]).map (fun h' => (h'.space.obs, byName h'.space h'.values (fun x => if x = "x" then 1 else 0)))
      = .ok (["y", "z", "x"], 2) := by decide +kernel
  cases hc : cube.withObs ["y", "z", "x"] with
  | error e => rw [hc] at key; cases key
  | ok h' =>
    rw [hc] at key
    simp only [Except.map, Except.ok.injEq, Prod.mk.injEq] at key
    exact ⟨h', rfl, key.1, by decide +kernel, key.2⟩

/-- **C22 is false** also in that a permutation of the axes of a valid histogram may raise. -/
theorem with_obs_cycle_raises_violated :
    (brick.withObs ["y", "z", "x"]).map (fun _ => ()) = .error .invalidArgument := by decide +kernel

example : (brick.withObs ["y"]).map (fun _ => ()) = .error .shapeIncompatible := by
  rw [with_obs_subset_raises brick_proper (by decide) (by decide) (by decide) (by decide)]; rfl

end Zfit.Bin
