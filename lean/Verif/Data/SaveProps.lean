import Verif.Data.SaveModel
import Verif.Data.Props

/-!
# Property C298: data that is saved and loaded is the same data

Vocabulary of Verif/Data/Spec.lean: `d.Shows pts w` says that every sequence of reads returns the right columns of the events
`pts` and that the weights are `w`.
-/

namespace Zfit.Dat

open Zfit

/-- One interval for each observable, lower below upper: limits as a `Space` accepts them. -/
def Ordered (leaf : List (Rat × Rat)) : Prop := ∀ l ∈ leaf, l.1 < l.2

theorem mapM_load (obs : List String) (leaf : List (Rat × Rat)) (ho : Ordered leaf) :
    (List.zipWith (fun o (l : Rat × Rat) => (⟨o, l.1, l.2⟩ : SpaceDoc)) obs leaf).mapM SpaceDoc.load =
      .ok (List.zipWith (fun o l => (⟨[o], some [[l]]⟩ : DSpace)) obs leaf) := by
  induction obs generalizing leaf with
  | nil => rfl
  | cons o obs ih =>
    cases leaf with
    | nil => rfl
    | cons l leaf =>
      have h1 : l.1 < l.2 := ho l (by simp)
      simp only [List.zipWith_cons_cons, List.mapM_cons, SpaceDoc.load, if_pos h1,
        ih leaf (fun x hx => ho x (by simp [hx])), except_bind_ok]
      rfl

theorem foldlM_mul (o : List String) (b : List (Rat × Rat)) (obs : List String) (leaf : List (Rat × Rat))
    (hl : leaf.length = obs.length) :
    (List.zipWith (fun o l => (⟨[o], some [[l]]⟩ : DSpace)) obs leaf).foldlM DSpace.mul ⟨o, some [b]⟩ =
      .ok ⟨o ++ obs, some [b ++ leaf]⟩ := by
  induction obs generalizing leaf o b with
  | nil =>
    have : leaf = [] := List.length_eq_zero_iff.1 (by simpa using hl)
    subst this
    simp only [List.zipWith_nil_left, List.foldlM_nil, List.append_nil]
    rfl
  | cons p obs ih =>
    cases leaf with
    | nil => simp at hl
    | cons l leaf =>
      simp only [List.length_cons, Nat.add_right_cancel_iff] at hl
      simp only [List.zipWith_cons_cons, List.foldlM_cons, DSpace.mul, List.flatMap_cons, List.flatMap_nil,
        List.map_cons, List.map_nil, List.append_nil, except_bind_ok]
      rw [ih _ _ leaf hl]
      simp

/-- The space that is loaded is the space that was saved. -/
theorem space_round_trip (s : DSpace) (hs : s.Proper) (leaf : List (Rat × Rat)) (hl : s.lims = some [leaf])
    (ho : Ordered leaf) : (saveSpaces s >>= loadSpaces) = .ok s := by
  have hlen : leaf.length = s.obs.length := hs.2.2 _ hl leaf (by simp)
  obtain ⟨obs, lims⟩ := s
  simp only at hl hlen
  subst hl
  cases obs with
  | nil => exact absurd rfl hs.1
  | cons o obs =>
    cases leaf with
    | nil => simp at hlen
    | cons l leaf =>
      simp only [List.length_cons, Nat.add_right_cancel_iff] at hlen
      simp only [saveSpaces, except_bind_ok, loadSpaces, mapM_load _ _ ho]
      rw [List.zipWith_cons_cons]
      simpa using foldlM_mul [o] [l] obs leaf hlen

/-- C298.  Data with rectangular limits that is saved and loaded: the same space and name, and exactly those events of the
data that are inside the limits, with their weights. -/
theorem saved_events (d : Named) (hs : d.data.space.Proper) (leaf : List (Rat × Rat))
    (hl : d.data.space.lims = some [leaf]) (ho : Ordered leaf) (pts : List (String → Rat)) (w : Option (List Rat))
    (hd : d.data.Shows pts w) (hw : Weighted pts w) :
    ∃ doc d', d.save = .ok doc ∧ doc.load = .ok d' ∧ d'.data.space = d.data.space ∧ d'.name = d.name ∧
      d'.data.Shows (pts.filter d.data.space.contains) (keptWeights d.data.space.contains pts w) := by
  obtain ⟨d1, h1⟩ := Shows.read hd none (by rintro x ⟨⟩)
  have hsp := space_round_trip d.data.space hs leaf hl ho
  cases hss : saveSpaces d.data.space with
  | error e => rw [hss] at hsp; cases hsp
  | ok sd =>
    rw [hss, except_bind_ok] at hsp
    obtain ⟨t, m, h2, h3⟩ := holds_fromTensor d.data.space.obs pts
    simp only [LDS.fromTensor, ne_eq, not_true_eq_false, if_false, Except.ok.injEq, LDS.tensor.injEq] at h2
    obtain ⟨rfl, rfl⟩ := h2
    obtain ⟨d2, h4, h5, h6, -⟩ := make_tensor_inv hs h3 hw
    refine ⟨⟨⟨d.data.space.obs.length, table d.data.space.obs pts⟩, sd, d.data.weights, d.name⟩, Named.make d2 d.name none, ?_, ?_, h5, rfl, h6.shows⟩
    · unfold Named.save
      rw [h1, except_bind_ok, hss, except_bind_ok]
      rfl
    · unfold DataDoc.load
      rw [hsp, except_bind_ok]
      simp only [Option.getD_none, hd.1]
      rw [h4, except_bind_ok]
      rfl

/-- C298.  Missing: data whose space has no limits or several, data created with `guarantee_limits=True` that has events
outside its limits, and labels other than the default: see the theorems below.  Otherwise the data that is loaded is the
data that was saved: the same space, events, weights, name and label. -/
theorem saved_data_partial (d : Named) (hs : d.data.space.Proper) (leaf : List (Rat × Rat))
    (hl : d.data.space.lims = some [leaf]) (ho : Ordered leaf) (pts : List (String → Rat)) (w : Option (List Rat))
    (hd : d.data.Shows pts w) (hw : Weighted pts w) (hin : ∀ p ∈ pts, d.data.space.contains p = true)
    (hlab : d.label = d.name.getD "Data") :
    ∃ doc d', d.save = .ok doc ∧ doc.load = .ok d' ∧ d'.data.space = d.data.space ∧ d'.name = d.name ∧
      d'.label = d.label ∧ d'.data.Shows pts w := by
  obtain ⟨doc, d', h1, h2, h3, h4, h5⟩ := saved_events d hs leaf hl ho pts w hd hw
  rw [filter_all hin, keptWeights_all hw hin] at h5
  refine ⟨doc, d', h1, h2, h3, h4, ?_, h5⟩
  have hn : d'.label = d'.name.getD "Data" := by
    unfold DataDoc.load at h2
    cases hls : loadSpaces doc.spaces with
    | error e => rw [hls] at h2; cases h2
    | ok sp =>
      rw [hls, except_bind_ok] at h2
      cases hm : Data.make sp (.tensor doc.data (List.range doc.data.cols)) doc.weights false with
      | error e => rw [hm] at h2; cases h2
      | ok dd =>
        rw [hm, except_bind_ok] at h2
        cases h2
        rfl
  rw [hn, h4, hlab]

/-- Two events in two observables, one weighted twice. -/
def exSaved : Named := Named.make
  ⟨⟨["x", "y"], some [[(0, 1), (-1, 3)]]⟩, .tensor ⟨2, [[1/2, 2], [1, -1]]⟩ [0, 1], some [1, 2]⟩ (some "d") none

example : exSaved.data.space.Proper ∧ Ordered [(0, 1), (-1, 3)] ∧ exSaved.label = exSaved.name.getD "Data" := by
  refine ⟨⟨by decide, by decide, ?_⟩, ?_, by decide⟩
  · rintro ls ⟨⟩ b hb
    simp only [List.mem_singleton] at hb
    subst hb
    rfl
  · intro l hl
    simp only [List.mem_cons, List.not_mem_nil, or_false] at hl
    rcases hl with rfl | rfl <;> decide

example : (exSaved.save >>= DataDoc.load) = .ok exSaved := by decide +kernel

/-- C298 is violated: data whose observables have no limits cannot be saved at all. -/
theorem saved_unlimited_violated (d : Named) (h : d.data.space.lims = none) (pts : List (String → Rat))
    (w : Option (List Rat)) (hd : d.data.Shows pts w) : d.save = .error .limitsNotSpecified := by
  obtain ⟨d1, h1⟩ := Shows.read hd none (by rintro x ⟨⟩)
  unfold Named.save
  rw [h1, except_bind_ok]
  simp only [saveSpaces, h]
  rfl

/-- C298 is violated: data in a union of several spaces cannot be saved. -/
theorem saved_union_violated (d : Named) (a b : List (Rat × Rat)) (ls : List (List (Rat × Rat)))
    (h : d.data.space.lims = some (a :: b :: ls)) (pts : List (String → Rat))
    (w : Option (List Rat)) (hd : d.data.Shows pts w) : d.save = .error .multipleLimitsNotImplemented := by
  obtain ⟨d1, h1⟩ := Shows.read hd none (by rintro x ⟨⟩)
  unfold Named.save
  rw [h1, except_bind_ok]
  simp only [saveSpaces, h]
  rfl

/-- C298 is violated: data created with `guarantee_limits=True` loses the events outside the limits when it is loaded. -/
theorem saved_guaranteed_violated : ∃ (s : DSpace) (d d' : Data),
    Data.fromTensor s ⟨1, [[1/2], [2]]⟩ none true = .ok d ∧ d.samplesize = 2 ∧
    ((Named.make d none none).save >>= DataDoc.load) = .ok (Named.make d' none none) ∧ d'.samplesize = 1 :=
  ⟨⟨["x"], some [[(0, 1)]]⟩, ⟨⟨["x"], some [[(0, 1)]]⟩, .tensor ⟨1, [[1/2], [2]]⟩ [0], none⟩,
    ⟨⟨["x"], some [[(0, 1)]]⟩, .tensor ⟨1, [[1/2]]⟩ [0], none⟩, by decide +kernel, by decide +kernel, by decide +kernel,
    by decide +kernel⟩

/-- C298 is violated: the label is not saved; the loaded data has the default label, whatever the label was. -/
theorem saved_label_violated (d d' : Named) (doc : DataDoc) (h : d.save = .ok doc) (h' : doc.load = .ok d') :
    d'.label = d.name.getD "Data" := by
  have hdoc : doc.name = d.name := by
    unfold Named.save at h
    cases hv : d.data.value none with
    | error e => rw [hv] at h; cases h
    | ok v =>
      rw [hv, except_bind_ok] at h
      cases hs : saveSpaces d.data.space with
      | error e => rw [hs] at h; cases h
      | ok sp =>
        rw [hs, except_bind_ok] at h
        cases h
        rfl
  unfold DataDoc.load at h'
  cases hls : loadSpaces doc.spaces with
  | error e => rw [hls] at h'; cases h'
  | ok sp =>
    rw [hls, except_bind_ok] at h'
    cases hm : Data.make sp (.tensor doc.data (List.range doc.data.cols)) doc.weights false with
    | error e => rw [hm] at h'; cases h'
    | ok dd =>
      rw [hm, except_bind_ok] at h'
      cases h'
      simp [Named.make, hdoc]

example : ((Named.make exSaved.data (some "d") (some "Signal region")).save >>= DataDoc.load) =
    .ok (Named.make exSaved.data (some "d") (some "d")) := by decide +kernel

end Zfit.Dat
