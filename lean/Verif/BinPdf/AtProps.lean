import Verif.BinPdf.AtModel
import Verif.BinPdf.PointProps
import Verif.Binned.ObsProps

/-!
# The contents of a binned PDF for given bins; the pairing of bins in a binned loss

* C279: `counts_for_bins_partial`, `counts_of_events`; `counts_cycle_violated`, `counts_other_binning_violated`
* C280: `loss_pairs_bins_partial`, `loss_shape_checked_partial`; `loss_other_binning_violated`, `loss_broadcast_violated`
-/

namespace Zfit.BinPdf

open Zfit Zfit.Bin

theorem exchanges_symm {o t : List String} (hl : t.length = o.length) (h : Exchanges o t) : Exchanges t o := by
  intro i j hi hij
  have hj : j < o.length := by
    by_contra hc
    rw [List.getElem?_eq_none (by omega), List.getElem?_eq_getElem hi] at hij
    cases hij
  exact (h j i hj hij.symm).symm

/-- The axis found by name does not depend on the order of the axes. -/
theorem find_perm {s s' : BSpace} (hp : s'.axes.Perm s.axes) (hn : s.obs.Nodup) (ob : String) :
    (s'.axes.find? fun a => a.name = ob) = s.axes.find? fun a => a.name = ob := by
  cases h : s.axes.find? fun a => a.name = ob with
  | none =>
    rw [List.find?_eq_none] at h ⊢
    exact fun a ha => h a (hp.mem_iff.1 ha)
  | some a =>
    have ham := List.mem_of_find?_eq_some h
    have han : a.name = ob := by simpa using List.find?_some h
    cases h' : s'.axes.find? fun a => a.name = ob with
    | none =>
      rw [List.find?_eq_none] at h'
      exact absurd han (by simpa using h' a (hp.mem_iff.2 ham))
    | some b =>
      have hbm := hp.mem_iff.1 (List.mem_of_find?_eq_some h')
      have hbn : b.name = ob := by simpa using List.find?_some h'
      rw [List.inj_on_of_nodup_map hn hbm ham (hbn.trans han.symm)]

theorem cellOf_perm {s s' : BSpace} (hp : s'.axes.Perm s.axes) (hn : s.obs.Nodup) (f : String → Nat) : cellOf s' f = cellOf s f := by
  funext ob
  unfold cellOf
  rw [find_perm hp hn]

/-- The array that `move_axis_obs` gives, for an exchange of pairs. -/
theorem moved_contents {I : (String → Option (Rat × Rat)) → Rat} {own xs : BSpace} {contents : NDArr} (hn : own.obs.Nodup) (hne : own.obs ≠ [])
    (hc : ContentsOf I own contents) (hp : xs.axes.Perm own.axes) (hx : Exchanges own.obs xs.obs) :
    ∃ b, moveAxisObs own.obs xs.obs contents = .ok b ∧ ContentsOf I xs b := by
  have hobs : xs.obs.Perm own.obs := hp.map _
  obtain ⟨h', hw, ho, hax, hsame⟩ := with_obs_keeps_contents_partial (h := ⟨own, contents, none⟩) ⟨hn, hc.1, by rintro v ⟨⟩⟩ hne hobs hx
  have hax' : h'.space.axes = xs.axes := by
    have h1 : h'.space.axes.map (·.name) = xs.axes.map (·.name) := ho
    have hperm : h'.space.axes.Perm xs.axes := hax.trans hp.symm
    have hxn : (xs.axes.map (·.name)).Nodup := hobs.nodup_iff.2 hn
    apply List.ext_getElem hperm.length_eq
    intro i h2 h3
    refine List.inj_on_of_nodup_map hxn (hperm.mem_iff.1 (List.getElem_mem h2)) (List.getElem_mem h3) ?_
    have := congrArg (fun l => l[i]?) h1
    simpa [List.getElem?_map, List.getElem?_eq_getElem h2, List.getElem?_eq_getElem h3] using this
  have hspace : h'.space = xs := by
    obtain ⟨⟨ax⟩, hv, hvar⟩ := h'
    obtain ⟨ax2⟩ := xs
    exact congrArg BSpace.mk hax'
  -- unfold `with_obs`
  obtain ⟨b, hb, hb1, hb2⟩ := moveAxisObs_perm hn hobs contents (by rw [hc.1]; simp [binShape, BSpace.obs])
  have hsp := withObs_space_perm (s := own) hobs hne
  have hnames : (⟨xs.obs.map (axisOf own)⟩ : BSpace).obs = xs.obs := by
    unfold BSpace.obs
    rw [List.map_map]
    conv_rhs => rw [← List.map_id (xs.axes.map (·.name))]
    exact List.map_congr_left (fun x hx => (axis_eq (hobs.mem_iff.1 hx)).2.1)
  have hval : h'.values = b ∧ b.shape = h'.space.axes.map (fun a => a.edges.length - 1) := by
    unfold Holder.withObs at hw
    simp only [hsp, except_bind_ok, hnames, hb, moveAxisObs?] at hw
    unfold Holder.make at hw
    simp only [except_bind_ok] at hw
    split at hw
    · cases hw
    · split at hw
      · cases hw
      · rename_i h1 h2
        cases hw
        refine ⟨rfl, ?_⟩
        simp only [ne_eq, not_not] at h2
        rw [← h2, List.map_map]
        rfl
  refine ⟨b, hb, ?_, ?_⟩
  · rw [hval.2, hspace]
    rfl
  · intro f hf
    have := hsame.1 f
    rw [hspace, hval.1] at this
    rw [this]
    show byName own contents f = _
    rw [hc.2 f (fun a ha => hf a (hp.mem_iff.2 ha)), cellOf_perm hp hn]

/-! ## C279 -/

/-- C279 (partial): the contents `I` of the bins of `x`, for `x` with the axes of the PDF in an order that arises by exchanging disjoint
pairs of observables (every order of at most two).  Missing from the full claim: the other orders (`counts_cycle_violated`) and other
binnings (`counts_other_binning_violated`), for both of which it is false. -/
theorem counts_for_bins_partial (I : (String → Option (Rat × Rat)) → Rat) (own : BSpace) (contents : NDArr) (hn : own.obs.Nodup)
    (hne : own.obs ≠ []) (hc : ContentsOf I own contents) (x : XIn) (hp : (x.bins own).axes.Perm own.axes)
    (hx : Exchanges own.obs (x.bins own).obs) (hd : ∀ d, x = .data d → d.Proper) :
    ∃ b, countsFor own contents x = .ok b ∧ ContentsOf I (x.bins own) b := by
  obtain ⟨b, hb, hcb⟩ := moved_contents hn hne hc hp hx
  refine ⟨b, ?_, hcb⟩
  have hs : x.sorted own = .ok () := by
    cases x with
    | none =>
      simp only [XIn.sorted]
      rw [withObs_space_perm (List.Perm.refl _) hne]
      rfl
    | space s =>
      have hobs : s.obs.Perm own.obs := List.Perm.map _ hp
      have hne' : s.obs ≠ [] := by
        intro h
        rw [h] at hobs
        exact hne hobs.symm.eq_nil
      simp only [XIn.sorted]
      rw [withObs_space_perm hobs.symm hne']
      rfl
    | data d =>
      have hobs : d.space.obs.Perm own.obs := List.Perm.map _ hp
      have hne' : d.space.obs ≠ [] := by
        intro h
        rw [h] at hobs
        exact hne hobs.symm.eq_nil
      obtain ⟨h', hw, -⟩ := with_obs_keeps_contents_partial (hd d rfl) hne' hobs.symm (exchanges_symm hobs.length_eq hx)
      simp only [XIn.sorted, hw]
      rfl
  unfold countsFor
  rw [hs, except_bind_ok]
  exact hb

/-- C279: for events each result is the content of the bin the event is in (for every axis the bin with index `f`), and zero for an event
that is outside of the binning in some observable. -/
theorem counts_of_events (own : BSpace) (hs : own.Proper) (contents : NDArr) (events : List (String → Rat)) :
    (countsOfEvents own contents events).length = events.length ∧
    ∀ (i : ℕ) (p : String → Rat), events[i]? = some p →
      (∀ f : String → Nat, (∀ a ∈ own.axes, inBin true a.edges (f a.name) (p a.name)) →
        (countsOfEvents own contents events)[i]? = some (byName own contents f)) ∧
      ((∃ a ∈ own.axes, inRange true a.edges (p a.name) = false) → (countsOfEvents own contents events)[i]? = some 0) := by
  refine ⟨by simp [countsOfEvents], fun i p hi => ⟨fun f hf => ?_, fun ho => ?_⟩⟩
  · simp only [countsOfEvents, List.getElem?_map, hi, Option.map_some]
    rw [gather_inside hs contents.get hf]
    simp [byName, BSpace.obs, Function.comp_def]
  · simp only [countsOfEvents, List.getElem?_map, hi, Option.map_some]
    rw [gather_outside hs contents.get ho]

/-- The volume of a bin with the given observables. -/
def volume (obs : List String) (c : String → Option (Rat × Rat)) : Rat := (obs.map fun ob => (c ob).elim 0 fun p => p.2 - p.1).prod

/-- The contents of a PDF that depends on the first observable only, with weight 1, 2, ... for its bins of width 1. -/
def slope (c : String → Option (Rat × Rat)) : Rat := (c "x").elim 0 fun p => p.2

/-- Three observables with two bins each. -/
def cubeBins : BSpace := ⟨[⟨"x", [0, 1, 2]⟩, ⟨"y", [0, 1, 2]⟩, ⟨"z", [0, 1, 2]⟩]⟩

/-- The same in another order. -/
def cubeBins' : BSpace := ⟨[⟨"y", [0, 1, 2]⟩, ⟨"z", [0, 1, 2]⟩, ⟨"x", [0, 1, 2]⟩]⟩

/-- The contents `slope` of the bins. -/
def slopeCounts : NDArr := ⟨[2, 2, 2], fun i => (i.getD 0 0 : Rat) + 1⟩

theorem slopeCounts_contents : ContentsOf slope cubeBins slopeCounts := by
  refine ⟨rfl, fun f hf => ?_⟩
  have h0 := hf ⟨"x", [0, 1, 2]⟩ (by simp [cubeBins])
  simp only [List.length_cons, List.length_nil] at h0
  have : byName cubeBins slopeCounts f = (f "x" : Rat) + 1 := by simp [byName, cubeBins, slopeCounts, BSpace.obs]
  rw [this]
  have h2 : slope (cellOf cubeBins f) = [(0 : Rat), 1, 2].getD (f "x" + 1) 0 := by simp [slope, cellOf, cubeBins]
  rw [h2]
  have hcases : f "x" = 0 ∨ f "x" = 1 := by omega
  rcases hcases with h | h <;> rw [h] <;> norm_num

/-- The property C279 fails for a cyclic order of three observables: the contents are those of other bins. -/
theorem counts_cycle_violated :
    ∃ (I : (String → Option (Rat × Rat)) → Rat) (own xs : BSpace) (contents b : NDArr), own.Proper ∧ xs.axes.Perm own.axes ∧
      ContentsOf I own contents ∧ countsFor own contents (.space xs) = .ok b ∧ ¬ ContentsOf I xs b := by
  refine ⟨slope, cubeBins, cubeBins', slopeCounts, _, ⟨by decide, ?_⟩, by decide, slopeCounts_contents, rfl, ?_⟩
  · intro a ha
    have : a.edges = [0, 1, 2] := by
      simp only [cubeBins, List.mem_cons, List.not_mem_nil, or_false] at ha
      rcases ha with rfl | rfl | rfl <;> rfl
    rw [this]
    exact ⟨by decide +kernel, by decide⟩
  · rintro ⟨-, h⟩
    have := h (fun x => if x = "x" then 1 else 0) (by intro a ha; fin_cases ha <;> decide)
    revert this
    decide +kernel

/-- The property C279 fails for another binning: the contents returned are those of the bins of the PDF. Here the PDF is uniform with
content 1 in [0, 1] and [1, 2]; for the bins [0, 1/2] and [1/2, 2] it says 1 and 1 too. -/
theorem counts_other_binning_violated :
    ∃ (I : (String → Option (Rat × Rat)) → Rat) (own xs : BSpace) (contents b : NDArr), own.Proper ∧ xs.Proper ∧ xs.obs = own.obs ∧
      ContentsOf I own contents ∧ countsFor own contents (.space xs) = .ok b ∧ b.shape = binShape xs ∧ ¬ ContentsOf I xs b := by
  refine ⟨volume ["x"], ⟨[⟨"x", [0, 1, 2]⟩]⟩, ⟨[⟨"x", [0, 1/2, 2]⟩]⟩, ⟨[2], fun _ => 1⟩, _, ⟨by decide, ?_⟩, ⟨by decide, ?_⟩, rfl, ⟨rfl, ?_⟩, rfl,
    by decide, ?_⟩
  · intro a ha
    simp only [List.mem_singleton] at ha
    subst ha
    exact ⟨by decide +kernel, by decide⟩
  · intro a ha
    simp only [List.mem_singleton] at ha
    subst ha
    exact ⟨by decide +kernel, by decide⟩
  · intro f hf
    have h0 := hf ⟨"x", [0, 1, 2]⟩ (by simp)
    have hcases : f "x" = 0 ∨ f "x" = 1 := by simp only [List.length_cons, List.length_nil] at h0; omega
    rcases hcases with h | h <;> simp [byName, volume, cellOf, h] <;> norm_num
  · rintro ⟨-, h⟩
    have := h (fun _ => 0) (by intro a ha; fin_cases ha; decide)
    revert this
    decide +kernel

/-! ## C280 -/

theorem broadcastRev_self (s : List ℕ) : broadcastRev s s = .ok s := by
  induction s with
  | nil => rfl
  | cons m s ih =>
    unfold broadcastRev
    rw [ih, except_bind_ok, if_pos (Or.inl rfl)]
    rfl

theorem broadcast_self (s : List ℕ) : broadcast s s = .ok s := by
  unfold broadcast
  rw [broadcastRev_self]
  simp [Except.map]

theorem mem_allIdx_bounds {shape idx : List ℕ} (h : idx ∈ allIdx shape) :
    idx.length = shape.length ∧ ∀ i (h1 : i < idx.length) (h2 : i < shape.length), idx[i] < shape[i] := by
  induction shape generalizing idx with
  | nil =>
    simp only [allIdx, List.mem_singleton] at h
    subst h
    exact ⟨rfl, fun i h1 => by simp at h1⟩
  | cons n rest ih =>
    simp only [allIdx, List.mem_flatMap, List.mem_range, List.mem_map] at h
    obtain ⟨a, ha, l, hl, rfl⟩ := h
    obtain ⟨h1, h2⟩ := ih hl
    refine ⟨by simp [h1], fun i hi1 hi2 => ?_⟩
    cases i with
    | zero => simpa using ha
    | succ i => simpa using h2 i (by simpa using hi1) (by simpa using hi2)

theorem bget_self {a : NDArr} {idx : List ℕ} (h : idx ∈ allIdx a.shape) : bget a idx = a.get idx := by
  obtain ⟨hl, hb⟩ := mem_allIdx_bounds h
  unfold bget
  rw [hl, Nat.sub_self, List.drop_zero]
  congr 1
  apply List.ext_getElem (by simp [hl])
  intro i h1 h2
  simp only [List.getElem_map, List.getElem_zip]
  split
  · rename_i h3
    have := hb i h2 (by omega)
    omega
  · rfl

/-- The index of the bin along the axis with the name `ob`. -/
def indexOf (s : BSpace) (i : List ℕ) (ob : String) : ℕ := i.getD (s.obs.idxOf ob) 0

theorem map_indexOf {s : BSpace} (hn : s.obs.Nodup) {i : List ℕ} (hi : i.length = s.obs.length) : s.obs.map (indexOf s i) = i := by
  apply List.ext_getElem (by simp [hi])
  intro k h1 h2
  simp only [List.getElem_map, indexOf]
  rw [hn.idxOf_getElem _ _, List.getD_eq_getElem?_getD, List.getElem?_eq_getElem h2, Option.getD_some]

theorem hasBin_indexOf {s : BSpace} (hn : s.obs.Nodup) {i : List ℕ} (hi : i ∈ allIdx (binShape s)) : BSpace.HasBin s (indexOf s i) := by
  obtain ⟨hl, hb⟩ := mem_allIdx_bounds hi
  intro a ha
  obtain ⟨k, hk, rfl⟩ := List.getElem_of_mem ha
  have hk' : k < s.obs.length := by simpa [BSpace.obs] using hk
  have : s.obs.idxOf s.axes[k].name = k := by
    have : s.axes[k].name = s.obs[k] := by simp [BSpace.obs]
    rw [this]
    exact hn.idxOf_getElem _ _
  have hki : k < i.length := by rw [hl]; simpa [binShape] using hk
  unfold indexOf
  rw [this, List.getD_eq_getElem?_getD, List.getElem?_eq_getElem hki, Option.getD_some]
  have := hb k hki (by simpa [binShape] using hk)
  simpa [binShape] using this

/-- C280 (partial): the loss is the sum over the bins of the data of the contribution of what the PDF (with contents `I`) predicts for that
bin and what is observed in it, for data with the axes of the PDF in an order that arises by exchanging disjoint pairs of observables.
A loss that is not extended predicts with the number of observed events.  Missing from the full claim: data with other bins or
observables is compared all the same (`loss_other_binning_violated`, `loss_broadcast_violated`), also the orders of C279. -/
theorem loss_pairs_bins_partial (kind : LossKind) (extended : Bool) (term : Rat → Rat → List ℕ → ℝ) (I : (String → Option (Rat × Rat)) → Rat)
    (own : BSpace) (contents : NDArr) (hn : own.obs.Nodup) (hne : own.obs ≠ []) (hc : ContentsOf I own contents) (d : Holder)
    (hd : d.Proper) (hp : d.space.axes.Perm own.axes) (hx : Exchanges own.obs d.space.obs) :
    pairLoss kind extended term own contents d = .ok ((allIdx (binShape d.space)).map fun i =>
      term (I (cellOf d.space (indexOf d.space i)) * if extended then 1 else ((allIdx (binShape d.space)).map d.values.get).sum)
        (d.values.get i) i).sum := by
  obtain ⟨b, hb, hcb⟩ := counts_for_bins_partial I own contents hn hne hc (.data d) hp hx (by rintro d' ⟨⟩; exact hd)
  have hbs : b.shape = binShape d.space := hcb.1
  have hds : d.values.shape = binShape d.space := hd.2.1
  unfold pairLoss
  rw [hb, except_bind_ok]
  simp only
  rw [if_neg (by rw [hbs, hds]; simp), hbs, hds, broadcast_self, except_bind_ok]
  simp only [pure, Except.pure, Except.ok.injEq]
  congr 1
  refine List.map_congr_left fun i hi => ?_
  have hil : i.length = d.space.obs.length := by
    rw [(mem_allIdx_bounds hi).1]
    simp [binShape, BSpace.obs]
  rw [bget_self (a := b) (by rw [hbs]; exact hi), bget_self (a := d.values) (by rw [hds]; exact hi)]
  have := hcb.2 (indexOf d.space i) (hasBin_indexOf hd.1 hi)
  unfold byName at this
  rw [show (XIn.bins own (.data d)) = d.space from rfl, map_indexOf hd.1 hil] at this
  rw [this]

/-- C280 (partial): a likelihood refuses data with the observables of the PDF in the same order but another number of bins along some
axis.  Missing: data with as many bins but other edges (`loss_other_binning_violated`), the chi2 losses (`loss_broadcast_violated`). -/
theorem loss_shape_checked_partial (extended : Bool) (term : Rat → Rat → List ℕ → ℝ) (own : BSpace) (contents : NDArr)
    (hn : own.obs.Nodup) (hne : own.obs ≠ []) (hc : contents.shape = binShape own) (d : Holder) (hd : d.Proper)
    (ho : d.space.obs = own.obs) (hs : binShape d.space ≠ binShape own) :
    pairLoss .nll extended term own contents d = .error .valueError := by
  obtain ⟨h', hw, -⟩ := with_obs_keeps_contents_partial hd (by rw [ho]; exact hne) (t := own.obs) (by rw [ho]) (by
    rw [ho]
    intro i j hi hij
    have hj : j < own.obs.length := by
      by_contra hcon
      rw [List.getElem?_eq_none (by omega), List.getElem?_eq_getElem hi] at hij
      cases hij
    rw [List.getElem?_eq_getElem hi, List.getElem?_eq_getElem hj, Option.some.injEq] at hij
    rw [(List.Nodup.getElem_inj_iff hn).1 hij])
  obtain ⟨b, hb, hb1, -⟩ := moveAxisObs_perm hn (List.Perm.refl _) contents (by rw [hc]; simp [binShape, BSpace.obs])
  have hbs : b.shape = binShape own := by
    rw [hb1]
    apply List.ext_getElem (by simp [binShape, BSpace.obs])
    intro i h1 h2
    have hi : i < contents.shape.length := by rw [hc]; exact h2
    simp only [List.getElem_map]
    rw [hn.idxOf_getElem _ _, List.getD_eq_getElem?_getD, List.getElem?_eq_getElem hi, Option.getD_some]
    simp [hc]
  have hcf : countsFor own contents (.data d) = .ok b := by
    unfold countsFor
    simp only [XIn.sorted, hw, Except.map, except_bind_ok, XIn.bins]
    rw [ho]
    exact hb
  unfold pairLoss
  rw [hcf, except_bind_ok]
  simp only
  rw [if_pos ⟨trivial, by rw [hbs]; intro h; exact hs (hd.2.1.symm.trans h.symm)⟩]

/-- The squared difference, for a loss. -/
noncomputable def square (p v : Rat) (_ : List ℕ) : ℝ := ((p - v) ^ 2 : Rat)

/-- The uniform PDF with content 1 in [0, 1] and [1, 2]. -/
def flatBins : BSpace := ⟨[⟨"x", [0, 1, 2]⟩]⟩

/-- Data that is exactly what this PDF predicts for the bins [0, 1/2] and [1/2, 2]. -/
def otherData : Holder := ⟨⟨[⟨"x", [0, 1/2, 2]⟩]⟩, ⟨[2], fun i => if i = [0] then 1/2 else 3/2⟩, none⟩

/-- The property C280 fails for data with other bins: the loss is not refused, and what the PDF predicts for one bin is compared with what
is observed in another.  The data here agrees with the prediction in every one of its bins, and the loss is not zero. -/
theorem loss_other_binning_violated :
    ContentsOf (volume ["x"]) flatBins ⟨[2], fun _ => 1⟩ ∧ otherData.Proper ∧ ContentsOf (volume ["x"]) otherData.space otherData.values ∧
    ∀ kind, pairLoss kind true square flatBins ⟨[2], fun _ => 1⟩ otherData = .ok (1/2) := by
  refine ⟨⟨rfl, fun f hf => ?_⟩, ⟨by decide, by decide, by rintro v ⟨⟩⟩, ⟨by decide, fun f hf => ?_⟩, fun kind => ?_⟩
  · have h0 := hf ⟨"x", [0, 1, 2]⟩ (by simp [flatBins])
    have hcases : f "x" = 0 ∨ f "x" = 1 := by simp only [List.length_cons, List.length_nil] at h0; omega
    rcases hcases with h | h <;> simp [byName, volume, cellOf, flatBins, h] <;> norm_num
  · have h0 := hf ⟨"x", [0, 1/2, 2]⟩ (by simp [otherData])
    have hcases : f "x" = 0 ∨ f "x" = 1 := by simp only [List.length_cons, List.length_nil] at h0; omega
    rcases hcases with h | h <;> simp [byName, volume, cellOf, otherData, BSpace.obs, h] <;> norm_num
  · obtain ⟨b, hb, hs, hv⟩ : ∃ b, countsFor flatBins ⟨[2], fun _ => 1⟩ (.data otherData) = .ok b ∧ b.shape = [2] ∧ ∀ i, b.get i = 1 :=
      ⟨_, rfl, by decide, fun _ => rfl⟩
    unfold pairLoss
    rw [hb, except_bind_ok]
    simp only
    rw [if_neg (by rw [hs]; rintro ⟨-, h⟩; exact h rfl), hs, show otherData.values.shape = [2] from rfl, show broadcast [2] [2] = .ok [2] from rfl, except_bind_ok]
    simp only [pure, Except.pure, Except.ok.injEq, show allIdx [2] = [[0], [1]] from rfl, List.map_cons, List.map_nil, List.sum_cons,
      List.sum_nil]
    have h0 : bget otherData.values [0] = 1/2 := by decide +kernel
    have h1 : bget otherData.values [1] = 3/2 := by decide +kernel
    have hb' : ∀ i, bget b i = 1 := fun i => hv _
    rw [h0, h1, hb', hb']
    simp only [square]
    norm_num

/-- Data with one bin, with what the PDF `flatBins` predicts for it. -/
def coarseData : Holder := ⟨⟨[⟨"x", [0, 2]⟩]⟩, ⟨[1], fun _ => 2⟩, none⟩

/-- The property C280 fails for chi2 losses also for data with a single bin: its content is compared with each bin of the PDF.  (A likelihood
refuses it.) -/
theorem loss_broadcast_violated :
    ContentsOf (volume ["x"]) flatBins ⟨[2], fun _ => 1⟩ ∧ coarseData.Proper ∧ ContentsOf (volume ["x"]) coarseData.space coarseData.values ∧
    pairLoss .chi2 true square flatBins ⟨[2], fun _ => 1⟩ coarseData = .ok 2 ∧
    pairLoss .nll true square flatBins ⟨[2], fun _ => 1⟩ coarseData = .error .valueError := by
  obtain ⟨b, hb, hs, hv⟩ : ∃ b, countsFor flatBins ⟨[2], fun _ => 1⟩ (.data coarseData) = .ok b ∧ b.shape = [2] ∧ ∀ i, b.get i = 1 :=
    ⟨_, rfl, by decide, fun _ => rfl⟩
  refine ⟨loss_other_binning_violated.1, ⟨by decide, by decide, by rintro v ⟨⟩⟩, ⟨by decide, fun f hf => ?_⟩, ?_, ?_⟩
  · have h0 := hf ⟨"x", [0, 2]⟩ (by simp [coarseData])
    have h : f "x" = 0 := by simp only [List.length_cons, List.length_nil] at h0; omega
    simp [byName, volume, cellOf, coarseData, h]
  · unfold pairLoss
    rw [hb, except_bind_ok]
    simp only
    rw [if_neg (fun h => absurd h.1 (by decide)), hs, show coarseData.values.shape = [1] from rfl, show broadcast [2] [1] = .ok [2] from by decide, except_bind_ok]
    simp only [pure, Except.pure, Except.ok.injEq, show allIdx [2] = [[0], [1]] from rfl, List.map_cons, List.map_nil, List.sum_cons,
      List.sum_nil]
    have h0 : ∀ i, bget coarseData.values i = 2 := fun _ => rfl
    have hb' : ∀ i, bget b i = 1 := fun i => hv _
    rw [h0, h0, hb', hb']
    simp only [square]
    norm_num
  · unfold pairLoss
    rw [hb, except_bind_ok]
    simp only
    rw [if_pos (by rw [hs]; decide)]

/-! ### Non-vacuity -/

/-- Two observables with one and two bins, and the same in the other order. -/
def twoBins : BSpace := ⟨[⟨"x", [0, 3]⟩, ⟨"y", [0, 1, 2]⟩]⟩

/-- Data in the other order. -/
def twoData : Holder := ⟨⟨[⟨"y", [0, 1, 2]⟩, ⟨"x", [0, 3]⟩]⟩, ⟨[2, 1], fun i => i.getD 0 0⟩, none⟩

theorem twoBins_contents : ContentsOf (volume ["x", "y"]) twoBins ⟨[1, 2], fun _ => 3⟩ := by
  refine ⟨by decide, fun f hf => ?_⟩
  have h0 := hf ⟨"x", [0, 3]⟩ (by simp [twoBins])
  have h1 := hf ⟨"y", [0, 1, 2]⟩ (by simp [twoBins])
  simp only [List.length_cons, List.length_nil] at h0 h1
  have hx : f "x" = 0 := by omega
  have hcases : f "y" = 0 ∨ f "y" = 1 := by omega
  rcases hcases with h | h <;> simp [byName, volume, cellOf, twoBins, hx, h] <;> norm_num

/-- non-vacuity of `counts_for_bins_partial` and `loss_pairs_bins_partial` -/
example : ∃ b, countsFor twoBins ⟨[1, 2], fun _ => 3⟩ (.data twoData) = .ok b ∧ ContentsOf (volume ["x", "y"]) twoData.space b :=
  counts_for_bins_partial _ _ _ (by decide) (by decide) twoBins_contents (.data twoData) (by decide)
    (exchanges_of_le_two (by decide) (by decide) (by decide)) (by rintro d ⟨⟩; exact ⟨by decide, by decide, by rintro v ⟨⟩⟩)

example (term : Rat → Rat → List ℕ → ℝ) : ∃ v, pairLoss .nll true term twoBins ⟨[1, 2], fun _ => 3⟩ twoData = .ok v :=
  ⟨_, loss_pairs_bins_partial .nll true term (volume ["x", "y"]) twoBins _ (by decide) (by decide) twoBins_contents twoData
    ⟨by decide, by decide, by rintro v ⟨⟩⟩ (by decide) (exchanges_of_le_two (by decide) (by decide) (by decide))⟩

/-- non-vacuity of `counts_of_events` -/
example : countsOfEvents flatBins ⟨[2], fun i => i.getD 0 0 + 5⟩ [fun _ => 3/2, fun _ => 7, fun _ => 2] = [6, 0, 6] := by decide +kernel

/-- non-vacuity of `loss_shape_checked_partial` -/
example (term : Rat → Rat → List ℕ → ℝ) : pairLoss .nll false term flatBins ⟨[2], fun _ => 1⟩ coarseData = .error .valueError :=
  loss_shape_checked_partial false term flatBins _ (by decide) (by decide) (by decide) coarseData ⟨by decide, by decide, by rintro v ⟨⟩⟩ rfl
    (by decide)

end Zfit.BinPdf
