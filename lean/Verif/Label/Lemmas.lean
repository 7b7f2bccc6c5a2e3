import Verif.Label.Model
import Verif.Space.CombineLemmas
import Verif.Common.Except

namespace Zfit.Lab

open Zfit Zfit.Coord Zfit.Sp

/-! ### Dictionaries -/

theorem dictGet_update (f : String → String) (ps : List (String × String)) (hf : ∀ p ∈ ps, p.2 = f p.1)
    (d : List (String × String)) (x : String) :
    dictGet (dictUpdate d ps) x = if x ∈ ps.map (·.1) then some (f x) else dictGet d x := by
  induction ps generalizing d with
  | nil => simp [dictUpdate]
  | cons p ps ih =>
    obtain ⟨k, v⟩ := p
    have hv : v = f k := hf (k, v) (by simp)
    have : dictUpdate d ((k, v) :: ps) = dictUpdate (dictSet d k v) ps := rfl
    rw [this, ih (fun q hq => hf q (by simp [hq]))]
    by_cases hx : x ∈ ps.map (·.1)
    · have : x ∈ ((k, v) :: ps).map (·.1) := by simp only [List.map_cons, List.mem_cons]; exact Or.inr hx
      rw [if_pos hx, if_pos this]
    · rw [if_neg hx]
      by_cases hk : x = k
      · subst hk
        simp [dictGet_set_self, hv]
      · rw [dictGet_set_ne _ _ _ _ hk, if_neg]
        simp only [List.map_cons, List.mem_cons, not_or]
        exact ⟨hk, hx⟩

theorem zip_map_fst (o : List String) (f : String → String) : (o.zip (o.map f)).map (·.1) = o := by
  induction o with
  | nil => rfl
  | cons a o ih => simp [ih]

theorem zip_map_snd (o : List String) (f : String → String) : ∀ p ∈ o.zip (o.map f), p.2 = f p.1 := by
  induction o with
  | nil => simp
  | cons a o ih =>
    intro p hp
    simp only [List.map_cons, List.zip_cons_cons, List.mem_cons] at hp
    rcases hp with rfl | hp
    · rfl
    · exact ih p hp

theorem mem_dictUpdate {d e : List (String × String)} {p : String × String} (h : p ∈ dictUpdate d e) : p ∈ d ∨ p ∈ e := by
  induction e generalizing d with
  | nil => exact Or.inl h
  | cons q e ih =>
    have : dictUpdate d (q :: e) = dictUpdate (dictSet d q.1 q.2) e := rfl
    rw [this] at h
    rcases ih h with h | h
    · rcases mem_dictSet h with h | h
      · exact Or.inl h
      · exact Or.inr (by simp [h])
    · exact Or.inr (by simp [h])

theorem dictGet_entries {f : String → String} {d : List (String × String)} (h : ∀ p ∈ d, p.2 = f p.1) (x : String) :
    dictGet d x = if x ∈ d.map (·.1) then some (f x) else none := by
  induction d with
  | nil => rfl
  | cons q d ih =>
    have ih := ih (fun p hp => h p (by simp [hp]))
    obtain ⟨k, v⟩ := q
    have hv : v = f k := h (k, v) (by simp)
    by_cases hk : k = x
    · subst hk
      simp [dictGet, hv]
    · have h1 : dictGet ((k, v) :: d) x = dictGet d x := by simp [dictGet, hk]
      rw [h1, ih]
      have h2 : x ∈ ((k, v) :: d).map (·.1) ↔ x ∈ d.map (·.1) := by
        simp only [List.map_cons, List.mem_cons]
        exact ⟨fun h => h.resolve_left (fun e => hk e.symm), Or.inr⟩
      by_cases hx : x ∈ d.map (·.1)
      · rw [if_pos hx, if_pos (h2.2 hx)]
      · rw [if_neg hx, if_neg (fun h => hx (h2.1 h))]

/-- The dictionary has exactly the keys `o`, with the values of `f`. -/
def Table (f : String → String) (o : List String) (d : List (String × String)) : Prop :=
  (∀ p ∈ d, p.2 = f p.1) ∧ ∀ x, x ∈ d.map (·.1) ↔ x ∈ o

theorem Table.get {f : String → String} {o : List String} {d : List (String × String)} (h : Table f o d) {x : String} (hx : x ∈ o) :
    dictGet d x = some (f x) := by
  rw [dictGet_entries h.1, if_pos ((h.2 x).2 hx)]

theorem table_dictOf (o : List String) (f : String → String) : Table f o (dictOf (o.zip (o.map f))) := by
  refine ⟨fun p hp => ?_, fun x => ?_⟩
  · rcases mem_dictUpdate hp with h | h
    · simp at h
    · exact zip_map_snd o f p h
  · unfold dictOf
    rw [keys_dictUpdate, zip_map_fst]
    simp

/-! ### Spaces that carry the labels of a function -/

/-- The observables have the labels that `f` says (nothing is said if there are no observables). -/
def Carries (f : String → String) (s : LSpace) : Prop :=
  ∀ o, s.space.coords.obs = some o → ∃ d, s.stored = .map d ∧ Table f o d

/-- The coordinates are coordinates. -/
def Valid (s : LSpace) : Prop := Coords.make s.space.coords.obs s.space.coords.axes = .ok s.space.coords

theorem labelsOf_eq {f : String → String} {s : LSpace} (h : Carries f s) {o o' : List String}
    (ho : s.space.coords.obs = some o) (hs : ∀ x ∈ o', x ∈ o) : s.labelsOf o' = .ok (o'.map f) := by
  obtain ⟨d, hd, hg⟩ := h o ho
  unfold LSpace.labelsOf
  apply mapM_ok_of_forall
  intro x hx
  simp [Stored.get, hd, hg.get (hs x hx)]

theorem labels_eq {f : String → String} {s : LSpace} (h : Carries f s) :
    s.labels = .ok (s.space.coords.obs.map (·.map f)) := by
  unfold LSpace.labels
  cases ho : s.space.coords.obs with
  | none => rfl
  | some o => simp [labelsOf_eq h ho (fun x hx => hx)]

theorem newLabels_some {f : String → String} {s : LSpace} (h : Carries f s) {o o' : List String}
    (ho : s.space.coords.obs = some o) (hs : ∀ x ∈ o', x ∈ o) : s.newLabels (some o') = .ok (some (o'.map f)) := by
  unfold LSpace.newLabels
  simp [labels_eq h, ho, labelsOf_eq h ho hs]

theorem newLabels_none {f : String → String} {s : LSpace} (h : Carries f s) (ho : s.space.coords.obs = none)
    (o : Option (List String)) : s.newLabels o = .ok none := by
  unfold LSpace.newLabels
  simp [labels_eq h, ho]

theorem space_make_coords {obs : Option (List String)} {axes : Option (List Int)} {lim : LimIn} {s : Space}
    (h : Space.make obs axes lim = .ok s) : s.coords = ⟨obs, axes⟩ ∧ Coords.make obs axes = .ok s.coords := by
  unfold Space.make at h
  rw [bind_eq_ok] at h
  obtain ⟨c, hc, h⟩ := h
  have hcc := make_coords hc
  cases lim
  case dict dO dA =>
    simp only [bind_eq_ok, except_pure, Except.ok.injEq] at h
    obtain ⟨⟨o, a⟩, _, rfl⟩ := h
    exact ⟨hcc, hc⟩
  all_goals
    simp only [bind_eq_ok, except_pure, Except.ok.injEq] at h
    obtain ⟨_, _, ⟨o, a⟩, _, rfl⟩ := h
    exact ⟨hcc, hc⟩

theorem make_some_default (o : List String) (axes : Option (List Int)) (lim : LimIn) :
    LSpace.make (some o) axes lim none = LSpace.make (some o) axes lim (some o) := by
  unfold LSpace.make
  cases hc : Coords.make (some o) axes with
  | error e => rfl
  | ok c =>
    have := make_coords hc
    subst this
    simp [mkStored, Coords.nObs]

/-- Making a space with labels is making it without, as long as the number of labels is right. -/
theorem make_space {obs : Option (List String)} {axes : Option (List Int)} {lim : LimIn} {label : Option (List String)}
    (h : ∀ l, label = some l → ∀ c, Coords.make obs axes = .ok c → l.length = c.nObs) :
    (LSpace.make obs axes lim label).map (·.space) = Space.make obs axes lim := by
  unfold LSpace.make
  cases hc : Coords.make obs axes with
  | error e =>
    unfold Space.make
    simp [hc, Except.map]
  | ok c =>
    have hst : ∃ st, mkStored c label = .ok st := by
      unfold mkStored
      cases label with
      | none => cases c.obs <;> exact ⟨_, rfl⟩
      | some l =>
        simp only [h l rfl c hc, ne_eq, not_true_eq_false, if_false]
        cases c.obs <;> exact ⟨_, rfl⟩
    obtain ⟨st, hst⟩ := hst
    simp only [except_bind_ok, hst]
    cases Space.make obs axes lim <;> rfl

theorem make_space_map (f : String → String) (obs : Option (List String)) (axes : Option (List Int)) (lim : LimIn) :
    (LSpace.make obs axes lim (obs.map (·.map f))).map (·.space) = Space.make obs axes lim := by
  apply make_space
  intro l hl c hc
  cases obs with
  | none => simp at hl
  | some o =>
    simp only [Option.map_some, Option.some.injEq] at hl
    subst hl
    have := make_coords hc
    subst this
    simp [Coords.nObs]

theorem make_carries {f : String → String} {o : List String} {axes : Option (List Int)} {lim : LimIn} {s : LSpace}
    (h : LSpace.make (some o) axes lim (some (o.map f)) = .ok s) :
    Carries f s ∧ Valid s ∧ s.space.coords.obs = some o := by
  unfold LSpace.make at h
  simp only [bind_eq_ok, except_pure, Except.ok.injEq] at h
  obtain ⟨c, hc, st, hst, sp, hsp, rfl⟩ := h
  obtain ⟨h1, h2⟩ := space_make_coords hsp
  have hcc := make_coords hc
  subst hcc
  simp only [mkStored, Coords.nObs, List.length_map, ne_eq, not_true_eq_false, if_false, Except.ok.injEq] at hst
  subst hst
  refine ⟨?_, ?_, by simp [h1]⟩
  · intro o' ho'
    simp only [h1, Option.some.injEq] at ho'
    subst ho'
    exact ⟨_, rfl, table_dictOf o f⟩
  · unfold Valid
    rw [h1] at h2 ⊢
    exact h2

theorem make_no_obs {axes : Option (List Int)} {lim : LimIn} {label : Option (List String)} {s : LSpace}
    (h : LSpace.make none axes lim label = .ok s) (f : String → String) :
    Carries f s ∧ Valid s ∧ s.space.coords.obs = none := by
  unfold LSpace.make at h
  simp only [bind_eq_ok, except_pure, Except.ok.injEq] at h
  obtain ⟨c, hc, st, hst, sp, hsp, rfl⟩ := h
  obtain ⟨h1, h2⟩ := space_make_coords hsp
  refine ⟨?_, ?_, by simp [h1]⟩
  · intro o' ho'
    simp [h1] at ho'
  · unfold Valid
    rw [h1] at h2 ⊢
    exact h2

end Zfit.Lab
