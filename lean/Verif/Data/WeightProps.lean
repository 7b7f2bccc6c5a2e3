import Verif.Data.Props

/-!
# Properties C271 and C272: replacing the weights of data
-/

namespace Zfit.Dat

open Zfit

/-! ## Model of `set_weights` -/

/-- `Data.set_weights` (data.py:386-416) outside of a `with` block, for a one dimensional array or `None`: there is no check of the length. -/
def Data.setWeights (d : Data) (w : Option (List Rat)) : Data := { d with weights := w }

/-- `with data.set_weights(w): body` (`TemporarilySet`, util/temporary.py:50-61): the old weights are read, the new ones set, and, however the
body ends, the old ones set again.  The body is any function of the data; it may set weights itself. -/
def Data.setWeightsWith {α : Type} (d : Data) (w : Option (List Rat)) (body : Data → Except Err α × Data) : Except Err α × Data :=
  let r := body (d.setWeights w)
  (r.1, r.2.setWeights d.weights)

/-! ## C271 -/

theorem numEntries_of_inv {d : Data} {pts : List (String → Rat)} {w : Option (List Rat)} (h : Inv d pts w) :
    d.ds.numEntries = pts.length := by
  obtain ⟨hp, h2, -, -⟩ := h
  rw [← table_length d.space.obs pts]
  cases hd : d.ds with
  | tensor t m =>
    rw [hd] at h2
    simp only [LDS.numEntries]
    rw [h2.2.2.2, List.length_map]
  | columns c =>
    rw [hd] at h2
    simp only [LDS.numEntries]
    rw [h2.2]
    obtain ⟨n, hn⟩ : ∃ n, d.space.obs.length = n + 1 := ⟨d.space.obs.length - 1, by
      have := List.length_pos_of_ne_nil hp.1
      omega⟩
    rw [hn, List.range_succ_eq_map]
    simp

/-- C271.  Data created from an array: `with_weights` gives the same events with the new weights, also in every view of the result, exactly if
there is one weight for each event of the data (that is: for each event inside the limits); otherwise it raises a ValueError.  `None` removes
the weights. -/
theorem with_weights (s : DSpace) (hs : s.Proper) (pts : List (String → Rat)) (w : Option (List Rat)) (hw : Weighted pts w) (d : Data)
    (hd : Data.fromTensor s ⟨s.obs.length, table s.obs pts⟩ w false = .ok d) (w' : Option (List Rat)) :
    (¬ Weighted (pts.filter s.contains) w' → d.withWeights w' = .error .valueError) ∧
    (Weighted (pts.filter s.contains) w' → ∃ d', d.withWeights w' = .ok d' ∧ d'.space = s ∧ d'.Shows (pts.filter s.contains) w' ∧
      ∀ reqs, (∀ l ∈ reqs, l.Nodup) → ∀ d'', d'.withObsAll reqs = .ok d'' → d''.Shows (pts.filter s.contains) w') := by
  obtain ⟨t, m, h1, h2⟩ := holds_fromTensor s.obs pts
  obtain ⟨d1, h3, h4, h5, -⟩ := make_tensor_inv hs h2 hw
  have : d = d1 := by
    simp only [Data.fromTensor, h1, except_bind_ok, h3, Except.ok.injEq] at hd
    exact hd.symm
  subst this
  have hlen := numEntries_of_inv h5
  constructor
  · intro hn
    cases w' with
    | none => exact absurd (fun l hl => by cases hl) hn
    | some l =>
      have : l.length ≠ d.ds.numEntries := by
        rw [hlen]
        intro hc
        exact hn (fun l' hl' => by cases hl'; exact hc)
      simp only [Data.withWeights, if_pos this]
  · intro hn
    have hok : d.withWeights w' = .ok { d with weights := w' } := by
      cases w' with
      | none => rfl
      | some l =>
        have : ¬ l.length ≠ d.ds.numEntries := by
          rw [hlen, not_not]
          exact hn l rfl
        simp only [Data.withWeights, if_neg this]
    have hinv : Inv { d with weights := w' } (pts.filter s.contains) w' := ⟨h5.1, h5.2.1, rfl, hn⟩
    refine ⟨_, hok, h4, hinv.shows, fun reqs hr d'' hd'' => ?_⟩
    exact (hinv.withObsAll (by simp only; rw [h4]; exact fun p hp => (List.mem_filter.1 hp).2) hr hd'').1.shows

/-- Three events in a space from 0 to 10, one outside: two weights are accepted, three are not. -/
example :
    ((Data.fromTensor ⟨["x"], some [[(0, 10)]]⟩ ⟨1, [[1], [20], [3]]⟩ none false).toOption.map
      (fun d => ((d.withWeights (some [5, 7])).toOption.map (·.weights), (d.withWeights (some [5, 7, 9])).toOption.map (·.weights)))) =
    some (some (some [5, 7]), none) := by decide +kernel

/-! ## C272 -/

theorem readAll_weights (d : Data) (v : Option (List Rat)) (reads : List (Option (List String))) :
    (d.setWeights v).readAll reads = d.readAll reads := by
  induction reads generalizing d with
  | nil => rfl
  | cons l ls ih =>
    have hv : (d.setWeights v).value l = (d.value l).map (fun r => (r.1, r.2.setWeights v)) := by
      unfold Data.value Data.setWeights
      cases l with
      | none =>
        simp only [except_bind_ok]
        rcases d.ds.value (some (List.range d.space.obs.length)) with e | r <;> rfl
      | some l =>
        simp only
        rcases d.space.withObs l with e | s
        · rfl
        · simp only [except_bind_ok]
          rcases s.obs.mapM (pyIndex d.space.obs) with e | idx
          · rfl
          · simp only [except_bind_ok]
            rcases d.ds.value (some idx) with e | r <;> rfl
    unfold Data.readAll
    rw [hv]
    rcases d.value l with e | r
    · rfl
    · simp only [Except.map, except_bind_ok, ih]

theorem shows_setWeights {d : Data} {pts : List (String → Rat)} {w : Option (List Rat)} (h : d.Shows pts w) (v : Option (List Rat)) :
    (d.setWeights v).Shows pts v :=
  ⟨rfl, fun reads hr => by rw [readAll_weights]; exact h.2 reads hr⟩

/-- C272, partial.  With one weight for each event `set_weights` changes the weights and not the events, and a `with` block gives back the
weights from before, however it ends, whatever is read and whatever weights are set in it.  Missing from the full claim: a wrong number of weights is not refused, see
`set_weights_violated`. -/
theorem set_weights_partial (s : DSpace) (hs : s.Proper) (pts : List (String → Rat)) (w : Option (List Rat)) (hw : Weighted pts w) (d : Data)
    (hd : Data.fromTensor s ⟨s.obs.length, table s.obs pts⟩ w false = .ok d) (w' : Option (List Rat))
    (_hw' : Weighted (pts.filter s.contains) w') :
    (d.setWeights w').Shows (pts.filter s.contains) w' ∧ (d.setWeights w').space = s ∧
    ∀ {α : Type} (body : Data → Except Err α × Data), (∀ e v, e.Shows (pts.filter s.contains) v → ∃ v', (body e).2.Shows (pts.filter s.contains) v') →
      (d.setWeightsWith w' body).1 = (body (d.setWeights w')).1 ∧
      (d.setWeightsWith w' body).2.Shows (pts.filter s.contains) (keptWeights s.contains pts w) := by
  obtain ⟨d0, h1, h2, h3⟩ := cut_keeps_exactly_inside s hs pts w hw
  rw [hd] at h1
  cases h1
  have hset := shows_setWeights h3 w'
  refine ⟨hset, h2, fun body hb => ⟨rfl, ?_⟩⟩
  obtain ⟨v, hv⟩ := hb _ _ hset
  have := shows_setWeights hv d.weights
  rw [← h3.1]
  exact this

/-- C272 is violated: three weights are set for two events, without an error. -/
theorem set_weights_violated :
    ∃ (s : DSpace) (pts : List (String → Rat)) (d : Data), s.Proper ∧ Data.fromTensor s ⟨s.obs.length, table s.obs pts⟩ none false = .ok d ∧
      d.Shows pts none ∧ (d.setWeights (some [1, 1, 1])).weights = some [1, 1, 1] ∧ pts.length = 2 ∧
      (d.setWeights (some [1, 1, 1])).samplesize = 3 ∧ d.samplesize = 2 := by
  have hs : (⟨["x"], none⟩ : DSpace).Proper := by
    refine ⟨by simp, by simp, ?_⟩
    simp
  obtain ⟨d, h1, h2, h3⟩ := cut_keeps_exactly_inside ⟨["x"], none⟩ hs [fun _ => 1, fun _ => 2] none (fun l hl => by cases hl)
  refine ⟨⟨["x"], none⟩, [fun _ => 1, fun _ => 2], d, hs, h1, ?_, rfl, rfl, ?_⟩
  · exact h3
  · have := h1.symm.trans (show _ = Except.ok (⟨⟨["x"], none⟩, .tensor ⟨1, [[1], [2]]⟩ [0], none⟩ : Data) from by decide +kernel)
    cases this
    constructor <;> decide +kernel

end Zfit.Dat
