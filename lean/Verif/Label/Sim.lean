import Verif.Label.Lemmas

namespace Zfit.Lab

open Zfit Zfit.Coord Zfit.Sp

/-- The labelled result goes with the unlabelled one; if `K`, then it has observables, which have the labels of `f`. -/
def Sim (K : Prop) (f : String → String) (r : Except Err LSpace) (r' : Except Err Space) : Prop :=
  match r, r' with
  | .ok s, .ok t => s.space = t ∧ Valid s ∧ ∃ g, Carries g s ∧ (K → g = f ∧ s.space.coords.obs.isSome)
  | .error e, .error e' => e = e'
  | _, _ => False

theorem Sim.map {K : Prop} {f : String → String} {r : Except Err LSpace} {r' : Except Err Space} (h : Sim K f r r') :
    r.map (·.space) = r' := by
  cases r <;> cases r' <;> simp_all [Sim, Except.map]

theorem Sim.mono {K K' : Prop} {f : String → String} {r : Except Err LSpace} {r' : Except Err Space} (h : Sim K f r r')
    (hk : K' → K) : Sim K' f r r' := by
  cases r <;> cases r' <;> simp only [Sim] at h ⊢
  · exact h
  · obtain ⟨h1, h2, g, h3, h4⟩ := h
    exact ⟨h1, h2, g, h3, fun k => h4 (hk k)⟩

theorem sim_refl {K : Prop} {f : String → String} {s : LSpace} (h : Carries f s) (hv : Valid s)
    (hk : K → s.space.coords.obs.isSome) : Sim K f (.ok s) (.ok s.space) :=
  ⟨rfl, hv, f, h, fun k => ⟨rfl, hk k⟩⟩

theorem sim_bind {α : Type} {K : Prop} {f : String → String} (x : Except Err α) {k : α → Except Err LSpace} {k' : α → Except Err Space}
    (h : ∀ a, x = .ok a → Sim K f (k a) (k' a)) : Sim K f (x >>= k) (x >>= k') := by
  cases x with
  | error e => exact rfl
  | ok a => exact h a rfl

theorem sim_bind' {K K' : Prop} {f : String → String} {r : Except Err LSpace} {r' : Except Err Space} (h : Sim K f r r')
    {k : LSpace → Except Err LSpace} {k' : Space → Except Err Space}
    (hk : ∀ s g, r = .ok s → Valid s → Carries g s → (K → g = f ∧ s.space.coords.obs.isSome) → Sim K' f (k s) (k' s.space)) :
    Sim K' f (r >>= k) (r' >>= k') := by
  cases r with
  | error e =>
    cases r' with
    | error e' => exact h
    | ok t => exact h.elim
  | ok s =>
    cases r' with
    | error e' => exact h.elim
    | ok t =>
      obtain ⟨rfl, h2, g, h3, h4⟩ := h
      exact hk s g rfl h2 h3 h4

/-- Making a space with labels of `f` for its observables. -/
theorem sim_make {K : Prop} {f : String → String} {o : Option (List String)} {a : Option (List Int)} {lim : LimIn}
    (hk : K → o.isSome) : Sim K f (LSpace.make o a lim (o.map (·.map f))) (Space.make o a lim) := by
  have hm := make_space_map f o a lim
  cases h : LSpace.make o a lim (o.map (·.map f)) with
  | error e => rw [h] at hm; rw [← hm]; exact rfl
  | ok s =>
    rw [h] at hm
    rw [← hm]
    cases o with
    | some o =>
      obtain ⟨h1, h2, h3⟩ := make_carries h
      exact ⟨rfl, h2, f, h1, fun _ => ⟨rfl, by simp [h3]⟩⟩
    | none =>
      obtain ⟨h1, h2, h3⟩ := make_no_obs h f
      exact ⟨rfl, h2, f, h1, fun k => by simpa using hk k⟩

/-- Making a space without labels. -/
theorem sim_make_none {f : String → String} {o : Option (List String)} {a : Option (List Int)} {lim : LimIn} :
    Sim False f (LSpace.make o a lim none) (Space.make o a lim) := by
  cases o with
  | none => exact sim_make (o := none) (by simp)
  | some o =>
    rw [make_some_default]
    have h := sim_make (K := False) (f := id) (o := some o) (a := a) (lim := lim) (by simp)
    simp only [Option.map_some, List.map_id] at h
    cases hr : LSpace.make (some o) a lim (some o) <;> cases hr' : Space.make (some o) a lim <;> rw [hr, hr'] at h <;>
      simp only [Sim] at h ⊢
    · exact h
    · obtain ⟨h1, h2, g, h3, -⟩ := h
      exact ⟨h1, h2, g, h3, False.elim⟩

/-- Making a space without observables. -/
theorem sim_make_drop {f : String → String} {a : List Int} {lim : LimIn} {l : List String} (hl : l.length = a.length) :
    Sim False f (LSpace.make none (some a) lim (some l)) (Space.make none (some a) lim) := by
  have hm := make_space (obs := none) (axes := some a) (lim := lim) (label := some l) (by
    intro l' hl' c hc
    cases hl'
    have := make_coords hc
    subst this
    simpa [Coords.nObs] using hl)
  cases h : LSpace.make none (some a) lim (some l) with
  | error e => rw [h] at hm; rw [← hm]; exact rfl
  | ok s =>
    rw [h] at hm
    rw [← hm]
    obtain ⟨h1, h2, h3⟩ := make_no_obs h f
    exact ⟨rfl, h2, f, h1, False.elim⟩

/-- Keeping observables of the space (or getting new ones if it has none). -/
theorem sim_new {f : String → String} {s : LSpace} (h : Carries f s) {o : Option (List String)} {a : Option (List Int)} {lim : LimIn}
    (ho : ∀ own, s.space.coords.obs = some own → ∃ o', o = some o' ∧ ∀ x ∈ o', x ∈ own) :
    Sim (s.space.coords.obs.isSome) f (s.newLabels o >>= fun n => LSpace.make o a lim n) (Space.make o a lim) := by
  cases hs : s.space.coords.obs with
  | none =>
    rw [newLabels_none h hs]
    exact (sim_make_none).mono (by simp)
  | some own =>
    obtain ⟨o', rfl, hsub⟩ := ho own hs
    rw [newLabels_some h hs hsub]
    exact sim_make (f := f) (o := some o') (by simp)

theorem valid_length {s : LSpace} (hv : Valid s) {o : List String} {a : List Int} (ho : s.space.coords.obs = some o)
    (ha : s.space.coords.axes = some a) : o.length = a.length := by
  unfold Valid at hv
  rw [ho, ha] at hv
  simp only [Coords.make] at hv
  by_contra hne
  simp [hne] at hv

theorem withObs_sub {c c' : Coords} {l own : List String} {sup sub : Bool} (h : c.withObs (some l) sup sub = .ok c')
    (ho : c.obs = some own) : ∃ o', c'.obs = some o' ∧ ∀ x ∈ o', x ∈ own := by
  obtain ⟨-, h1, -⟩ := coords_withObs_picks ho h
  exact ⟨_, h1, fun x hx => by simpa using (List.mem_filter.1 hx).2⟩

theorem withAxes_sub {c c' : Coords} {l a : List Int} {own : List String} {sup sub : Bool} (h : c.withAxes (some l) sup sub = .ok c')
    (ha : c.axes = some a) (ho : c.obs = some own) : ∃ o', c'.obs = some o' ∧ ∀ x ∈ o', x ∈ own := by
  obtain ⟨idx, h1, h2, h3, h4, h5, h6⟩ := coords_withAxes_picks ha h
  obtain ⟨o', h7, h8⟩ := h6 own ho
  exact ⟨o', h7, fun x hx => h8.mem x hx⟩

theorem sim_withObs {f : String → String} {s : LSpace} (h : Carries f s) (hv : Valid s) (l : Option (List String)) (sup sub : Bool) :
    Sim (s.space.coords.obs.isSome ∧ l.isSome) f (s.withObs l sup sub) (s.space.withObs l sup sub) := by
  cases l with
  | none =>
    unfold LSpace.withObs Space.withObs
    cases ho : s.space.coords.obs with
    | none => exact sim_refl h hv (by simp)
    | some o =>
      cases ha : s.space.coords.axes with
      | none => exact rfl
      | some a =>
        simp only [labels_eq h, ho, Option.map_some, except_bind_ok]
        exact (sim_make_drop (by simp [valid_length hv ho ha])).mono (by simp)
  | some l =>
    unfold LSpace.withObs Space.withObs
    refine sim_bind _ fun c hc => ?_
    exact (sim_new h (fun own ho => withObs_sub hc ho)).mono (fun k => k.1)

theorem sim_withAxes {f : String → String} {s : LSpace} (h : Carries f s) (hv : Valid s) (l : Option (List Int)) (sup sub : Bool) :
    Sim (s.space.coords.obs.isSome) f (s.withAxes l sup sub) (s.space.withAxes l sup sub) := by
  cases l with
  | none =>
    unfold LSpace.withAxes Space.withAxes
    cases ha : s.space.coords.axes with
    | none => exact sim_refl h hv (by simp)
    | some a =>
      cases ho : s.space.coords.obs with
      | none => exact rfl
      | some o =>
        have := sim_new h (o := some o) (a := none) (lim := s.limits) (fun own hown => by
          rw [ho] at hown; cases hown; exact ⟨o, rfl, fun x hx => hx⟩)
        rw [ho] at this
        exact this
  | some l =>
    unfold LSpace.withAxes Space.withAxes
    cases ha : s.space.coords.axes with
    | none =>
      cases ho : s.space.coords.obs with
      | none => exact rfl
      | some o =>
        simp only
        split
        · exact rfl
        · have := sim_new h (o := some o) (a := some l) (lim := s.limits) (fun own hown => by
            rw [ho] at hown; cases hown; exact ⟨o, rfl, fun x hx => hx⟩)
          rw [ho] at this
          exact this
    | some a =>
      refine sim_bind _ fun c hc => ?_
      exact sim_new h (fun own ho => withAxes_sub hc ha ho)

theorem sim_copy {f : String → String} {s : LSpace} (h : Carries f s) (a : Option (List Int)) (lim : LimIn) :
    Sim (s.space.coords.obs.isSome) f (s.labels >>= fun n => LSpace.make s.space.coords.obs a lim n)
      (Space.make s.space.coords.obs a lim) := by
  rw [labels_eq h]
  exact sim_make (fun k => k)

theorem sim_autofill {f : String → String} {s : LSpace} (h : Carries f s) (hv : Valid s) (ow : Bool) :
    Sim (s.space.coords.obs.isSome) f (s.withAutofillAxes ow) (s.space.withAutofillAxes ow) := by
  unfold LSpace.withAutofillAxes Space.withAutofillAxes
  refine sim_bind _ fun c hc => ?_
  split
  · exact sim_copy h _ _
  · exact sim_refl h hv (fun k => k)

theorem sim_dropAxes {f : String → String} {s : LSpace} (h : Carries f s) (hv : Valid s) :
    Sim (s.space.coords.obs.isSome) f s.dropAxes s.space.dropAxes := by
  unfold LSpace.dropAxes Space.dropAxes
  split
  · exact sim_withAxes h hv _ _ _
  · exact sim_refl h hv (fun k => k)

theorem Sim.retarget {K K' : Prop} {f g : String → String} {r : Except Err LSpace} {r' : Except Err Space} (h : Sim K g r r')
    (hk : K' → K) (hg : K' → g = f) : Sim K' f r r' := by
  cases r <;> cases r' <;> simp only [Sim] at h ⊢
  · exact h
  · obtain ⟨h1, h2, g', h3, h4⟩ := h
    exact ⟨h1, h2, g', h3, fun k => ⟨(h4 (hk k)).1.trans (hg k), (h4 (hk k)).2⟩⟩

theorem sim_withCoords {f : String → String} {s : LSpace} (h : Carries f s) (hv : Valid s) (c : Coords) (sup sub : Bool) :
    Sim (s.space.coords.obs.isSome) f (s.withCoords c sup sub) (s.space.withCoords c sup sub) := by
  have second : ∀ (hn : ¬ (s.space.coords.obs.isSome ∧ c.obs.isSome)), Sim (s.space.coords.obs.isSome) f
      (match s.space.coords.axes, c.axes with
        | some _, some ca => do
          let s1 ← s.withAxes (some ca) sup sub
          match c.obs with
          | none => return s1
          | some _ =>
            let c' ← c.withAxes s1.space.coords.axes sup sub
            s1.withObs c'.obs true true
        | _, _ => .error .coordinatesUnderdefined)
      (match s.space.coords.axes, c.axes with
        | some _, some ca => do
          let s1 ← s.space.withAxes (some ca) sup sub
          match c.obs with
          | none => return s1
          | some _ =>
            let c' ← c.withAxes s1.coords.axes sup sub
            s1.withObs c'.obs true true
        | _, _ => .error .coordinatesUnderdefined) := by
    intro hn
    cases ha : s.space.coords.axes with
    | none => exact rfl
    | some a =>
      cases hca : c.axes with
      | none => exact rfl
      | some ca =>
        refine sim_bind' (sim_withAxes h hv (some ca) sup sub) fun s1 g hs1 hv1 hg hk => ?_
        cases hco : c.obs with
        | none => exact (sim_refl (K := s.space.coords.obs.isSome) hg hv1 (fun k => (hk k).2)).retarget id (fun k => (hk k).1)
        | some co =>
          have hno : ¬ s.space.coords.obs.isSome := fun k => hn ⟨k, by simp [hco]⟩
          refine sim_bind _ fun c' hc' => ?_
          exact (sim_withObs hg hv1 _ _ _).retarget (fun k => absurd k hno) (fun k => absurd k hno)
  unfold LSpace.withCoords Space.withCoords
  cases ho : s.space.coords.obs with
  | none =>
    have := second (by simp [ho])
    rw [ho] at this
    exact this
  | some o =>
    cases hco : c.obs with
    | none =>
      have := second (by simp [hco])
      rw [ho, hco] at this
      exact this
    | some co =>
      simp only
      refine sim_bind' (sim_withObs h hv (some co) sup sub) fun s1 g hs1 hv1 hg hk => ?_
      obtain ⟨rfl, hkk⟩ := hk ⟨by simp [ho], by simp⟩
      cases hca : c.axes with
      | none => exact sim_refl hg hv1 (fun _ => hkk)
      | some ca =>
        refine sim_bind' (sim_dropAxes hg hv1) fun s2 g2 hs2 hv2 hg2 hk2 => ?_
        obtain ⟨rfl, hkk2⟩ := hk2 hkk
        refine sim_bind _ fun c' hc' => ?_
        exact (sim_withAxes hg2 hv2 _ _ _).mono (fun _ => hkk2)

/-- What the unlabelled space does on a request. -/
def applySpace (s : Space) : LReq → Except Err Space
  | .req r => s.apply r
  | .limits l => Space.make s.coords.obs s.coords.axes l

/-- The request does not take the observables away. -/
def LReq.Keeps : LReq → Prop
  | .req (.withObs l _ _) => l.isSome
  | _ => True

theorem sim_apply {f : String → String} {s : LSpace} (h : Carries f s) (hv : Valid s) (r : LReq) :
    Sim (s.space.coords.obs.isSome ∧ r.Keeps) f (s.apply r) (applySpace s.space r) := by
  cases r with
  | limits l => exact (sim_copy h _ _).mono (fun k => k.1)
  | req r =>
    cases r with
    | withObs l sup sub => exact sim_withObs h hv l sup sub
    | withAxes l sup sub => exact (sim_withAxes h hv l sup sub).mono (fun k => k.1)
    | withCoords c sup sub => exact (sim_withCoords h hv c sup sub).mono (fun k => k.1)
    | autofill ow => exact (sim_autofill h hv ow).mono (fun k => k.1)
    | subObs l =>
      refine Sim.mono (K := s.space.coords.obs.isSome) ?_ (fun k => k.1)
      exact sim_bind _ fun c hc => sim_new h (fun own ho => withObs_sub hc ho)
    | subAxes l =>
      refine Sim.mono (K := s.space.coords.obs.isSome) ?_ (fun k => k.1)
      refine sim_bind _ fun c hc => sim_new h (fun own ho => ?_)
      cases ha : s.space.coords.axes with
      | some a => exact withAxes_sub hc ha ho
      | none =>
        unfold Coords.withAxes at hc
        simp only [ha, ho] at hc
        split at hc
        · cases hc
        · have := make_coords hc
          subst this
          exact ⟨own, rfl, fun x hx => hx⟩

end Zfit.Lab
