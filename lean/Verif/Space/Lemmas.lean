import Verif.Space.Model
import Verif.Space.Spec
import Verif.Coord.Lemmas
import Mathlib.Data.List.Nodup

namespace Zfit.Sp

open Zfit Zfit.Coord

variable {α β κ ι : Type}

/-! ### `Picks` -/

theorem Picks.length {idx : List Nat} {l l' : List α} (h : Picks idx l l') : l'.length = idx.length :=
  gather_length h

theorem Picks.getElem? {idx : List Nat} {l l' : List α} (h : Picks idx l l') (k : Nat) :
    l'[k]? = idx[k]?.bind (l[·]?) := gather_getElem? h k

theorem picks_range (l : List α) : Picks (List.range l.length) l l := by
  unfold Picks
  apply List.ext_getElem?
  intro k
  simp only [List.getElem?_map]
  by_cases hk : k < l.length
  · simp [hk]
  · rw [List.getElem?_eq_none (by simpa using Nat.le_of_not_lt hk), List.getElem?_eq_none (by omega)]
    rfl

theorem picks_of_lt {idx : List Nat} {l : List α} (h : ∀ i ∈ idx, i < l.length) : ∃ l', Picks idx l l' := by
  obtain ⟨r, hr⟩ := mapM_pyGet_ok_of_lt h
  exact ⟨r, mapM_pyGet_ok.1 hr⟩

theorem Picks.lt {idx : List Nat} {l l' : List α} (h : Picks idx l l') : ∀ i ∈ idx, i < l.length := by
  intro i hi
  have : l[i]? ∈ idx.map (l[·]?) := List.mem_map_of_mem hi
  rw [h] at this
  obtain ⟨x, _, hx⟩ := List.mem_map.1 this
  exact (List.getElem?_eq_some_iff.1 hx.symm).1

theorem Picks.trans {i j k : List Nat} {l l' l'' : List α} (h : Picks i l l') (h' : Picks j l' l'')
    (hk : Picks j i k) : Picks k l l'' := by
  unfold Picks
  apply List.ext_getElem?
  intro n
  simp only [List.getElem?_map]
  rw [hk.getElem? n, h'.getElem? n]
  cases hj : j[n]? with
  | none => rfl
  | some m =>
    simp only [Option.bind_some]
    rw [h.getElem? m]
    cases hi : i[m]? with
    | none =>
      exfalso
      have hm := h'.lt m (List.mem_of_getElem? hj)
      rw [h.length] at hm
      rw [List.getElem?_eq_getElem hm] at hi
      cases hi
    | some a =>
      simp only [Option.bind_some, Option.map_some]
      have ha := h.lt a (List.mem_of_getElem? hi)
      rw [List.getElem?_eq_getElem ha]
      rfl

theorem Picks.exists_comp {i j : List Nat} {l l' l'' : List α} (h : Picks i l l') (h' : Picks j l' l'') :
    ∃ k, Picks j i k := by
  apply picks_of_lt
  intro m hm
  rw [← h.length]
  exact h'.lt m hm

theorem Picks.mem {idx : List Nat} {l l' : List α} (h : Picks idx l l') : ∀ x ∈ l', x ∈ l := mem_of_gather h

theorem picks_idxOf [DecidableEq α] {own req : List α} (h : ∀ x ∈ req, x ∈ own) :
    Picks (req.map own.idxOf) own req := mapM_pyGet_ok.1 (gather_idxOf h)

/-! ### dictionaries -/

/-- The dictionary `d` assigns to the coordinate at each position of `keys` the interval at this position. -/
def Aligned (keys : List κ) (lims : List (Rat × Rat)) (d : List (κ × Lim)) : Prop :=
  (∀ p ∈ d, ∃ (i : Nat) (l : Rat × Rat), keys[i]? = some p.1 ∧ lims[i]? = some l ∧ p.2 = .rect l.1 l.2) ∧
    ∀ k ∈ keys, k ∈ d.map (·.1)

theorem nodup_getElem?_inj {l : List α} (hn : l.Nodup) {i j : Nat} {x : α} (hi : l[i]? = some x)
    (hj : l[j]? = some x) : i = j := by
  obtain ⟨hi', hi''⟩ := List.getElem?_eq_some_iff.1 hi
  obtain ⟨hj', hj''⟩ := List.getElem?_eq_some_iff.1 hj
  exact (List.getElem_inj hn).1 (hi''.trans hj''.symm)

theorem Aligned.filter [DecidableEq κ] {keys keys' : List κ} {lims lims' : List (Rat × Rat)}
    {d : List (κ × Lim)} {idx : List Nat} (h : Aligned keys lims d) (hn : keys.Nodup)
    (hk : Picks idx keys keys') (hl : Picks idx lims lims') :
    Aligned keys' lims' (d.filter (fun p => decide (p.1 ∈ keys'))) := by
  constructor
  · intro p hp
    obtain ⟨hp, hm⟩ := List.mem_filter.1 hp
    have hm : p.1 ∈ keys' := by simpa using hm
    obtain ⟨n, hn', hpn⟩ := List.getElem_of_mem hm
    have hk' : keys'[n]? = some p.1 := by rw [List.getElem?_eq_getElem hn', hpn]
    obtain ⟨i, l, hi, hli, hp2⟩ := h.1 p hp
    refine ⟨n, l, hk', ?_, hp2⟩
    rw [hk.getElem? n] at hk'
    rw [hl.getElem? n]
    cases hidx : idx[n]? with
    | none => rw [hidx] at hk'; simp at hk'
    | some m =>
      rw [hidx] at hk'
      simp only [Option.bind_some] at hk' ⊢
      rw [nodup_getElem?_inj hn hk' hi]
      exact hli
  · intro k hk'
    have : k ∈ keys := hk.mem k hk'
    obtain ⟨p, hp, rfl⟩ := List.mem_map.1 (h.2 k this)
    exact List.mem_map.2 ⟨p, List.mem_filter.2 ⟨hp, by simpa using hk'⟩, rfl⟩

theorem mem_dictSet [DecidableEq κ] {d : List (κ × β)} {k : κ} {v : β} {p : κ × β}
    (h : p ∈ dictSet d k v) : p ∈ d ∨ p = (k, v) := by
  induction d with
  | nil => simp only [dictSet, List.mem_singleton] at h; exact Or.inr h
  | cons q d ih =>
    obtain ⟨k', v'⟩ := q
    unfold dictSet at h
    split at h
    · rename_i hk
      subst hk
      rcases List.mem_cons.1 h with h | h
      · exact Or.inr h
      · exact Or.inl (List.mem_cons_of_mem _ h)
    · rcases List.mem_cons.1 h with h | h
      · exact Or.inl (h ▸ List.mem_cons_self)
      · rcases ih h with h | h
        · exact Or.inl (List.mem_cons_of_mem _ h)
        · exact Or.inr h

theorem keys_dictSet [DecidableEq κ] {d : List (κ × β)} {k : κ} {v : β} {x : κ} :
    x ∈ (dictSet d k v).map (·.1) ↔ x ∈ d.map (·.1) ∨ x = k := by
  induction d with
  | nil => simp [dictSet]
  | cons q d ih =>
    obtain ⟨k', v'⟩ := q
    unfold dictSet
    split
    · rename_i hk
      subst hk
      simp only [List.map_cons, List.mem_cons]
      constructor
      · rintro (h | h)
        · exact Or.inl (Or.inl h)
        · exact Or.inl (Or.inr h)
      · rintro ((h | h) | h)
        · exact Or.inl h
        · exact Or.inr h
        · exact Or.inl h
    · simp only [List.map_cons, List.mem_cons, ih]
      constructor
      · rintro (h | h | h)
        · exact Or.inl (Or.inl h)
        · exact Or.inl (Or.inr h)
        · exact Or.inr h
      · rintro ((h | h) | h)
        · exact Or.inl h
        · exact Or.inr (Or.inl h)
        · exact Or.inr (Or.inr h)

theorem buildDict_aux [DecidableEq κ] (keys : List κ) (lims : List (Rat × Rat)) (acc : List (κ × Lim))
    (hk : ∀ k ∈ keys, k ∉ acc.map (·.1)) (hn : keys.Nodup) :
    (keys.zip (lims.map (fun l => Lim.rect l.1 l.2))).foldl (fun d p => dictSet d p.1 p.2) acc =
      acc ++ keys.zip (lims.map (fun l => Lim.rect l.1 l.2)) := by
  induction keys generalizing lims acc with
  | nil => simp
  | cons k keys ih =>
    cases lims with
    | nil => simp
    | cons l lims =>
      simp only [List.map_cons, List.zip_cons_cons, List.foldl_cons]
      have hset : ∀ (a : List (κ × Lim)) (v : Lim), k ∉ a.map (·.1) → dictSet a k v = a ++ [(k, v)] := by
        intro a v ha
        induction a with
        | nil => rfl
        | cons q a iha =>
          simp only [List.map_cons, List.mem_cons, not_or] at ha
          unfold dictSet
          rw [if_neg (fun h => ha.1 h.symm), iha ha.2]
          rfl
      rw [hset _ _ (hk k List.mem_cons_self), ih]
      · simp
      · intro x hx
        simp only [List.map_append, List.map_cons, List.map_nil, List.mem_append, List.mem_singleton, not_or]
        refine ⟨hk x (List.mem_cons_of_mem _ hx), ?_⟩
        rintro rfl
        exact (List.nodup_cons.1 hn).1 hx
      · exact (List.nodup_cons.1 hn).2

theorem buildDict_eq [DecidableEq κ] {keys : List κ} {lims : List (Rat × Rat)} (hn : keys.Nodup) :
    buildDict keys (lims.map (fun l => Lim.rect l.1 l.2)) = keys.zip (lims.map (fun l => Lim.rect l.1 l.2)) := by
  unfold buildDict
  rw [buildDict_aux keys lims [] (by simp) hn]
  rfl

theorem aligned_zip [DecidableEq κ] {keys : List κ} {lims : List (Rat × Rat)} (hl : keys.length = lims.length) :
    Aligned keys lims (keys.zip (lims.map (fun l => Lim.rect l.1 l.2))) := by
  constructor
  · intro p hp
    obtain ⟨i, hi⟩ := List.mem_iff_getElem?.1 hp
    rw [List.getElem?_zip_eq_some] at hi
    obtain ⟨h1, h2⟩ := hi
    rw [List.getElem?_map] at h2
    cases hli : lims[i]? with
    | none => rw [hli] at h2; simp at h2
    | some l =>
      rw [hli] at h2
      simp only [Option.map_some, Option.some.injEq] at h2
      exact ⟨i, l, h1, hli, h2.symm⟩
  · intro k hk
    rw [← List.unzip_fst, List.unzip_zip_left (by simp [hl])]
    exact hk

theorem Aligned.filter_self [DecidableEq κ] {keys : List κ} {lims : List (Rat × Rat)} {d : List (κ × Lim)}
    (h : Aligned keys lims d) : d.filter (fun p => decide (p.1 ∈ keys)) = d := by
  rw [List.filter_eq_self]
  intro p hp
  obtain ⟨i, l, hi, -, -⟩ := h.1 p hp
  simpa using List.mem_of_getElem? hi

theorem deriveDict_ok [DecidableEq κ] [DecidableEq ι] {own : List κ} {other : List ι}
    {lims : List (Rat × Rat)} {d : List (ι × Lim)} (h : Aligned other lims d) (hno : other.Nodup)
    (hlen : own.length = other.length) :
    ∃ d', deriveDict own (some other) d = .ok d' ∧ Aligned own lims d' := by
  have key : ∀ (d : List (ι × Lim)) (acc : List (κ × Lim)),
      (∀ p ∈ d, ∃ (i : Nat) (l : Rat × Rat), other[i]? = some p.1 ∧ lims[i]? = some l ∧ p.2 = Lim.rect l.1 l.2) →
      (∀ p ∈ acc, ∃ (i : Nat) (l : Rat × Rat), own[i]? = some p.1 ∧ lims[i]? = some l ∧ p.2 = Lim.rect l.1 l.2) →
      ∃ d', d.foldlM (fun acc p => do
          let i ← pyIndex other p.1
          let k ← pyGet own i
          return dictSet acc k p.2) acc = Except.ok d' ∧
        (∀ p ∈ d', ∃ (i : Nat) (l : Rat × Rat), own[i]? = some p.1 ∧ lims[i]? = some l ∧ p.2 = Lim.rect l.1 l.2) ∧
        (∀ k ∈ acc.map (·.1), k ∈ d'.map (·.1)) ∧
        (∀ p ∈ d, ∀ (i : Nat) (k : κ), other[i]? = some p.1 → own[i]? = some k → k ∈ d'.map (·.1)) := by
    intro d
    induction d with
    | nil =>
      intro acc _ hacc
      exact ⟨acc, rfl, hacc, fun _ h => h, by simp⟩
    | cons p d ih =>
      intro acc hd hacc
      obtain ⟨i, l, hi, hl, hp⟩ := hd p List.mem_cons_self
      have him : p.1 ∈ other := List.mem_of_getElem? hi
      have hidx : other.idxOf p.1 = i := nodup_getElem?_inj hno (getElem?_idxOf_mem him) hi
      have hil : i < own.length := by
        rw [hlen]; exact (List.getElem?_eq_some_iff.1 hi).1
      have hk : own[i]? = some own[i] := List.getElem?_eq_getElem hil
      obtain ⟨d', hd', h1, h2, h3⟩ := ih (dictSet acc own[i] p.2)
        (fun q hq => hd q (List.mem_cons_of_mem _ hq)) (by
          intro q hq
          rcases mem_dictSet hq with hq | rfl
          · exact hacc q hq
          · exact ⟨i, l, hk, hl, hp⟩)
      refine ⟨d', ?_, h1, ?_, ?_⟩
      · rw [List.foldlM_cons]
        have e1 : pyIndex other p.1 = .ok i := by simp [pyIndex, him, hidx]
        have e2 : pyGet own i = .ok own[i] := pyGet_ok.2 hk
        rw [e1]
        simp only [except_bind_ok, e2, except_pure]
        exact hd'
      · intro k hk'
        exact h2 k (keys_dictSet.2 (Or.inl hk'))
      · intro q hq j k hj hjk
        rcases List.mem_cons.1 hq with rfl | hq
        · have := nodup_getElem?_inj hno hj hi
          subst this
          rw [hk] at hjk
          cases hjk
          exact h2 _ (keys_dictSet.2 (Or.inr rfl))
        · exact h3 q hq j k hj hjk
  obtain ⟨d', h0, h1, -, h3⟩ := key d [] h.1 (by simp)
  refine ⟨d', h0, h1, ?_⟩
  intro k hk
  obtain ⟨i, hi, hik⟩ := List.getElem_of_mem hk
  have hi' : i < other.length := hlen ▸ hi
  have hmem : other[i] ∈ d.map (·.1) := h.2 _ (List.getElem_mem hi')
  obtain ⟨p, hp, hp1⟩ := List.mem_map.1 hmem
  refine h3 p hp i k ?_ ?_
  · rw [List.getElem?_eq_getElem hi', hp1]
  · rw [List.getElem?_eq_getElem hi, hik]

/-! ### The invariant of a space -/

/-- The space holds, at each position, one coordinate of each kind it has, and the interval at this position of `lims`
is the one its dictionaries give for these coordinates. -/
structure Inv (s : Space) (lims : List (Rat × Rat)) : Prop where
  some_coord : s.coords.obs ≠ none ∨ s.coords.axes ≠ none
  ne : lims ≠ []
  obs_none : s.coords.obs = none → s.obsLim = none
  ax_none : s.coords.axes = none → s.axLim = none
  obs : ∀ o, s.coords.obs = some o →
    o.length = lims.length ∧ o.Nodup ∧ ∃ d, s.obsLim = some d ∧ Aligned o lims d
  ax : ∀ a, s.coords.axes = some a →
    a.length = lims.length ∧ a.Nodup ∧ ∃ d, s.axLim = some d ∧ Aligned a lims d

/-- A successful constructor call with limits dictionaries that fit the coordinates. -/
theorem make_inv {dO : Option (List (String × Lim))} {dA : Option (List (Int × Lim))} {s' : Space}
    {lims' : List (Rat × Rat)} (o' : Option (List String)) (a' : Option (List Int)) (hne : lims' ≠ [])
    (ho : ∀ l, o' = some l → l.Nodup ∧ l.length = lims'.length ∧
      ((∃ d, dO = some d ∧ Aligned l lims' (d.filter (fun p => decide (p.1 ∈ l)))) ∨
        (dO = none ∧ ∃ a d, a' = some a ∧ a.Nodup ∧ a.length = lims'.length ∧ dA = some d ∧ Aligned a lims' d)))
    (ha : ∀ l, a' = some l → l.Nodup ∧ l.length = lims'.length ∧
      ((∃ d, dA = some d ∧ Aligned l lims' (d.filter (fun p => decide (p.1 ∈ l)))) ∨
        (dA = none ∧ ∃ o d, o' = some o ∧ o.Nodup ∧ o.length = lims'.length ∧ dO = some d ∧ Aligned o lims' d)))
    (hm : Space.make o' a' (.dict dO dA) = .ok s') :
    Inv s' lims' ∧ s'.coords = ⟨o', a'⟩ := by
  unfold Space.make at hm
  rw [bind_eq_ok] at hm
  obtain ⟨c, hc, hm⟩ := hm
  have hcoords : c = ⟨o', a'⟩ ∧ (o' ≠ none ∨ a' ≠ none) := by
    unfold Coords.make at hc
    cases o' <;> cases a' <;> simp only at hc
    · simp at hc
    · split at hc
      · simp at hc
      · cases hc; simp
    · split at hc
      · simp at hc
      · cases hc; simp
    · split at hc
      · simp at hc
      · split at hc
        · simp at hc
        · cases hc; simp
  obtain ⟨rfl, hsome⟩ := hcoords
  simp only [bind_eq_ok, except_pure, Except.ok.injEq] at hm
  obtain ⟨⟨no, na⟩, hnorm, rfl⟩ := hm
  unfold normaliseDict at hnorm
  have hcond : (dO.isNone && dA.isNone) = false := by
    rcases hsome with hs | hs
    · obtain ⟨l, rfl⟩ := Option.ne_none_iff_exists'.1 hs
      obtain ⟨-, -, ⟨d, rfl, -⟩ | ⟨-, a, d, -, -, -, rfl, -⟩⟩ := ho l rfl <;> simp
    · obtain ⟨l, rfl⟩ := Option.ne_none_iff_exists'.1 hs
      obtain ⟨-, -, ⟨d, rfl, -⟩ | ⟨-, a, d, -, -, -, rfl, -⟩⟩ := ha l rfl <;> simp
  rw [hcond] at hnorm
  simp only [Bool.false_eq_true, if_false] at hnorm
  simp only [bind_eq_ok, except_pure, Except.ok.injEq, Prod.mk.injEq] at hnorm
  obtain ⟨no', hno, na', hna, rfl, rfl⟩ := hnorm
  refine ⟨⟨hsome, hne, ?_, ?_, ?_, ?_⟩, rfl⟩
  · intro hn; simp only at hn; subst hn; simpa [pickOrDerive] using hno.symm
  · intro hn; simp only at hn; subst hn; simpa [pickOrDerive] using hna.symm
  · intro l hlo
    simp only at hlo
    subst hlo
    obtain ⟨hn, hlen, hcase⟩ := ho l rfl
    refine ⟨hlen, hn, ?_⟩
    rcases hcase with ⟨d, rfl, hal⟩ | ⟨rfl, a, d, rfl, hna', hal', rfl, hal⟩
    · simp only [pickOrDerive, Except.ok.injEq] at hno
      exact ⟨_, hno.symm, hal⟩
    · obtain ⟨d', hd', hal2⟩ := deriveDict_ok (own := l) hal hna' (by omega)
      simp only [pickOrDerive, Option.getD_some, hd', except_bind_ok, except_pure, Except.ok.injEq] at hno
      exact ⟨_, hno.symm, hal2⟩
  · intro l hlo
    simp only at hlo
    subst hlo
    obtain ⟨hn, hlen, hcase⟩ := ha l rfl
    refine ⟨hlen, hn, ?_⟩
    rcases hcase with ⟨d, rfl, hal⟩ | ⟨rfl, a, d, rfl, hna', hal', rfl, hal⟩
    · simp only [pickOrDerive, Except.ok.injEq] at hna
      exact ⟨_, hna.symm, hal⟩
    · obtain ⟨d', hd', hal2⟩ := deriveDict_ok (own := l) hal hna' (by omega)
      simp only [pickOrDerive, Option.getD_some, hd', except_bind_ok, except_pure, Except.ok.injEq] at hna
      exact ⟨_, hna.symm, hal2⟩

/-- A constructor call with the dictionaries of a space and coordinates picked from it. -/
theorem make_picked {s s' : Space} {lims lims' : List (Rat × Rat)} {idx : List Nat} (h : Inv s lims)
    (hl : Picks idx lims lims') (hne : lims' ≠ []) (o' : Option (List String)) (a' : Option (List Int))
    (ho : ∀ l, o' = some l → l.Nodup ∧ ∃ o, s.coords.obs = some o ∧ Picks idx o l)
    (ha : ∀ l, a' = some l → l.Nodup ∧ ∃ a, s.coords.axes = some a ∧ Picks idx a l)
    (hm : Space.make o' a' (.dict s.obsLim s.axLim) = .ok s') :
    Inv s' lims' ∧ s'.coords = ⟨o', a'⟩ := by
  refine make_inv o' a' hne ?_ ?_ hm
  · intro l hlo
    obtain ⟨hn, o, ho1, hp⟩ := ho l hlo
    obtain ⟨hlen, hno, d, hd, hal⟩ := h.obs o ho1
    exact ⟨hn, by rw [hp.length, hl.length], Or.inl ⟨d, hd, hal.filter hno hp hl⟩⟩
  · intro l hlo
    obtain ⟨hn, o, ho1, hp⟩ := ha l hlo
    obtain ⟨hlen, hno, d, hd, hal⟩ := h.ax o ho1
    exact ⟨hn, by rw [hp.length, hl.length], Or.inl ⟨d, hd, hal.filter hno hp hl⟩⟩

/-! ### Coordinates: what a successful request picks -/

theorem make_coords {o : Option (List String)} {a : Option (List Int)} {c : Coords}
    (h : Coords.make o a = .ok c) : c = ⟨o, a⟩ := by
  unfold Coords.make at h
  cases o <;> cases a <;> simp only at h
  · simp at h
  · split at h
    · simp at h
    · cases h; rfl
  · split at h
    · simp at h
    · cases h; rfl
  · split at h
    · simp at h
    · split at h
      · simp at h
      · cases h; rfl

theorem coords_withObs_picks {c c' : Coords} {o l : List String} {sup sub : Bool} (ho : c.obs = some o)
    (h : c.withObs (some l) sup sub = .ok c') :
    ∃ idx, c'.obs = some (l.filter (· ∈ o)) ∧ idx = (l.filter (· ∈ o)).map o.idxOf ∧ idx ≠ [] ∧
      Picks idx o (l.filter (· ∈ o)) ∧ (c.axes = none → c'.axes = none) ∧
      ∀ a, c.axes = some a → ∃ a', c'.axes = some a' ∧ Picks idx a a' := by
  have hmem : ∀ x ∈ l.filter (· ∈ o), x ∈ o := by
    intro x hx; simpa using (List.mem_filter.1 hx).2
  unfold Coords.withObs at h
  simp only [ho] at h
  split at h
  · simp at h
  · rename_i hany
    split at h
    · simp at h
    · split at h
      · simp at h
      · have hidx : c.getReorderIndices (some l) none = .ok ((l.filter (· ∈ o)).map o.idxOf) := by
          unfold Coords.getReorderIndices
          simp [ho, reorderIndices_ok_of_subset hmem]
        simp only [hidx, except_bind_ok, reorderTuple, gather_idxOf hmem, except_pure] at h
        rw [bind_eq_ok] at h
        obtain ⟨na, hna, hmk⟩ := h
        have := make_coords hmk
        subst this
        refine ⟨_, rfl, rfl, ?_, picks_idxOf hmem, ?_, ?_⟩
        · simp only [Decidable.not_not, List.any_eq_true, decide_eq_true_eq] at hany
          obtain ⟨x, hx, hxo⟩ := hany
          intro hcon
          have hcon : l.filter (· ∈ o) = [] := by simpa using hcon
          have : x ∈ l.filter (· ∈ o) := List.mem_filter.2 ⟨hx, by simpa using hxo⟩
          rw [hcon] at this
          simp at this
        · intro hn
          rw [hn] at hna
          simpa using hna.symm
        · intro a ha
          rw [ha] at hna
          simp only [bind_eq_ok, Except.ok.injEq] at hna
          obtain ⟨a', h1, rfl⟩ := hna
          exact ⟨a', rfl, mapM_pyGet_ok.1 h1⟩

theorem coords_withAxes_picks {c c' : Coords} {a l : List Int} {sup sub : Bool} (ha : c.axes = some a)
    (h : c.withAxes (some l) sup sub = .ok c') :
    ∃ idx, c'.axes = some (l.filter (· ∈ a)) ∧ idx = (l.filter (· ∈ a)).map a.idxOf ∧ idx ≠ [] ∧
      Picks idx a (l.filter (· ∈ a)) ∧ (c.obs = none → c'.obs = none) ∧
      ∀ o, c.obs = some o → ∃ o', c'.obs = some o' ∧ Picks idx o o' := by
  have hmem : ∀ x ∈ l.filter (· ∈ a), x ∈ a := by
    intro x hx; simpa using (List.mem_filter.1 hx).2
  unfold Coords.withAxes at h
  simp only [ha] at h
  split at h
  · simp at h
  · rename_i hany
    split at h
    · simp at h
    · split at h
      · simp at h
      · have hidx : c.getReorderIndices none (some l) = .ok ((l.filter (· ∈ a)).map a.idxOf) := by
          unfold Coords.getReorderIndices
          cases c.obs <;> simp [ha, reorderIndices_ok_of_subset hmem]
        simp only [hidx, except_bind_ok, reorderTuple, gather_idxOf hmem, except_pure] at h
        rw [bind_eq_ok] at h
        obtain ⟨no, hno, hmk⟩ := h
        have := make_coords hmk
        subst this
        refine ⟨_, rfl, rfl, ?_, picks_idxOf hmem, ?_, ?_⟩
        · simp only [Decidable.not_not, List.any_eq_true, decide_eq_true_eq] at hany
          obtain ⟨x, hx, hxo⟩ := hany
          intro hcon
          have hcon : l.filter (· ∈ a) = [] := by simpa using hcon
          have : x ∈ l.filter (· ∈ a) := List.mem_filter.2 ⟨hx, by simpa using hxo⟩
          rw [hcon] at this
          simp at this
        · intro hn
          rw [hn] at hno
          simpa using hno.symm
        · intro o ho
          rw [ho] at hno
          simp only [bind_eq_ok, Except.ok.injEq] at hno
          obtain ⟨o', h1, rfl⟩ := hno
          exact ⟨o', rfl, mapM_pyGet_ok.1 h1⟩

theorem Picks.nodup {idx : List Nat} {l l' : List α} (h : Picks idx l l') (hl : l.Nodup) (hi : idx.Nodup) :
    l'.Nodup := by
  rw [List.nodup_iff_injective_get]
  intro i j hij
  apply Fin.ext
  have hi' : (i : Nat) < idx.length := by rw [← h.length]; exact i.2
  have hj' : (j : Nat) < idx.length := by rw [← h.length]; exact j.2
  have e1 := h.getElem? i
  have e2 := h.getElem? j
  rw [List.getElem?_eq_getElem i.2, List.getElem?_eq_getElem hi'] at e1
  rw [List.getElem?_eq_getElem j.2, List.getElem?_eq_getElem hj'] at e2
  simp only [Option.bind_some] at e1 e2
  have hij : l'[(i : Nat)] = l'[(j : Nat)] := hij
  rw [hij] at e1
  have := nodup_getElem?_inj hl e1.symm e2.symm
  exact (List.getElem_inj hi).1 this

theorem nodup_map_idxOf [DecidableEq α] {o l : List α} (hl : l.Nodup) (hm : ∀ x ∈ l, x ∈ o) :
    (l.map o.idxOf).Nodup := by
  refine List.Nodup.map_on ?_ hl
  intro x hx y hy hxy
  exact (List.idxOf_inj (hm x hx)).1 hxy

/-! ### One request -/

/-- `s'` holds columns of `s`: the intervals, and (if `ko` resp. `ka`) the observables and axes, at positions `idx`. -/
def StepRes (s s' : Space) (lims : List (Rat × Rat)) (ko ka : Prop) : Prop :=
  ∃ idx lims', Picks idx lims lims' ∧ Inv s' lims' ∧
    (ko → ∀ o, s.coords.obs = some o → ∃ o', s'.coords.obs = some o' ∧ Picks idx o o') ∧
    (ka → ∀ a, s.coords.axes = some a → ∃ a', s'.coords.axes = some a' ∧ Picks idx a a')

theorem StepRes.refl {s : Space} {lims : List (Rat × Rat)} (h : Inv s lims) (ko ka : Prop) :
    StepRes s s lims ko ka := by
  refine ⟨List.range lims.length, lims, picks_range lims, h, fun _ o ho => ⟨o, ho, ?_⟩, fun _ a ha => ⟨a, ha, ?_⟩⟩
  · rw [← (h.obs o ho).1]; exact picks_range o
  · rw [← (h.ax a ha).1]; exact picks_range a

theorem StepRes.mono {s s' : Space} {lims : List (Rat × Rat)} {ko ka ko' ka' : Prop}
    (h : StepRes s s' lims ko ka) (h1 : ko' → ko) (h2 : ka' → ka) : StepRes s s' lims ko' ka' := by
  obtain ⟨idx, lims', a, b, c, d⟩ := h
  exact ⟨idx, lims', a, b, fun x => c (h1 x), fun x => d (h2 x)⟩

theorem StepRes.trans {s s' s'' : Space} {lims : List (Rat × Rat)} {ko ka ko' ka' : Prop}
    (h : StepRes s s' lims ko ka) (h' : ∀ lims', Inv s' lims' → StepRes s' s'' lims' ko' ka') :
    StepRes s s'' lims (ko ∧ ko') (ka ∧ ka') := by
  obtain ⟨idx, lims', hp, hi, ho, ha⟩ := h
  obtain ⟨idx', lims'', hp', hi', ho', ha'⟩ := h' lims' hi
  obtain ⟨k, hk⟩ := hp.exists_comp hp'
  refine ⟨k, lims'', hp.trans hp' hk, hi', ?_, ?_⟩
  · rintro ⟨k1, k2⟩ o hso
    obtain ⟨o', ho1, ho2⟩ := ho k1 o hso
    obtain ⟨o'', ho3, ho4⟩ := ho' k2 o' ho1
    exact ⟨o'', ho3, ho2.trans ho4 hk⟩
  · rintro ⟨k1, k2⟩ o hso
    obtain ⟨o', ho1, ho2⟩ := ha k1 o hso
    obtain ⟨o'', ho3, ho4⟩ := ha' k2 o' ho1
    exact ⟨o'', ho3, ho2.trans ho4 hk⟩

theorem picks_lims {lims : List (Rat × Rat)} {o o' : List α} {idx : List Nat} (hp : Picks idx o o')
    (hlen : o.length = lims.length) (hne : idx ≠ []) : ∃ lims', Picks idx lims lims' ∧ lims' ≠ [] := by
  obtain ⟨l', hl'⟩ := picks_of_lt (l := lims) (idx := idx) (fun i hi => hlen ▸ hp.lt i hi)
  refine ⟨l', hl', ?_⟩
  rintro rfl
  apply hne
  simpa using hl'.length.symm

/-- Requests on the coordinates that pick columns (by observable or by axis) lift to the space. -/
theorem copy_picked {s s' : Space} {lims : List (Rat × Rat)} (h : Inv s lims) {c' : Coords} {idx : List Nat}
    (hidx : idx ≠ []) (hnd : idx.Nodup)
    (ho0 : s.coords.obs = none → c'.obs = none)
    (ho1 : ∀ o, s.coords.obs = some o → ∃ o', c'.obs = some o' ∧ Picks idx o o')
    (ha0 : s.coords.axes = none → c'.axes = none)
    (ha1 : ∀ a, s.coords.axes = some a → ∃ a', c'.axes = some a' ∧ Picks idx a a')
    (hm : s.copyWith c'.obs c'.axes = .ok s') : StepRes s s' lims True True := by
  have hlims : ∃ lims', Picks idx lims lims' ∧ lims' ≠ [] := by
    rcases h.some_coord with hs | hs
    · obtain ⟨o, ho⟩ := Option.ne_none_iff_exists'.1 hs
      obtain ⟨o', -, hp⟩ := ho1 o ho
      exact picks_lims hp (h.obs o ho).1 hidx
    · obtain ⟨o, ho⟩ := Option.ne_none_iff_exists'.1 hs
      obtain ⟨o', -, hp⟩ := ha1 o ho
      exact picks_lims hp (h.ax o ho).1 hidx
  obtain ⟨lims', hpl, hne⟩ := hlims
  obtain ⟨hinv, hco⟩ := make_picked h hpl hne c'.obs c'.axes (by
      intro l hl
      cases hso : s.coords.obs with
      | none => rw [ho0 hso] at hl; cases hl
      | some o =>
        obtain ⟨o', ho', hp⟩ := ho1 o hso
        rw [hl] at ho'
        cases ho'
        exact ⟨hp.nodup (h.obs o hso).2.1 hnd, o, rfl, hp⟩) (by
      intro l hl
      cases hso : s.coords.axes with
      | none => rw [ha0 hso] at hl; cases hl
      | some o =>
        obtain ⟨o', ho', hp⟩ := ha1 o hso
        rw [hl] at ho'
        cases ho'
        exact ⟨hp.nodup (h.ax o hso).2.1 hnd, o, rfl, hp⟩) hm
  refine ⟨idx, lims', hpl, hinv, fun _ o ho => ?_, fun _ a ha => ?_⟩
  · obtain ⟨o', h1, h2⟩ := ho1 o ho
    exact ⟨o', by rw [hco]; exact h1, h2⟩
  · obtain ⟨o', h1, h2⟩ := ha1 a ha
    exact ⟨o', by rw [hco]; exact h1, h2⟩

/-- Setting coordinates of a kind the space does not have yet, or dropping one kind, keeps all columns. -/
theorem copy_same {s s' : Space} {lims : List (Rat × Rat)} (h : Inv s lims) (o' : Option (List String))
    (a' : Option (List Int))
    (ho : ∀ l, o' = some l → s.coords.obs = some l ∨
      (s.coords.obs = none ∧ l.Nodup ∧ ∃ a, s.coords.axes = some a ∧ a' = some a ∧ l.length = a.length))
    (ha : ∀ l, a' = some l → s.coords.axes = some l ∨
      (s.coords.axes = none ∧ l.Nodup ∧ ∃ o, s.coords.obs = some o ∧ o' = some o ∧ l.length = o.length))
    (hm : s.copyWith o' a' = .ok s') :
    StepRes s s' lims (o'.isSome = true) (a'.isSome = true) := by
  obtain ⟨hinv, hco⟩ := make_inv (lims' := lims) o' a' h.ne (by
    intro l hl
    rcases ho l hl with hs | ⟨hs, hnd, a, ha1, ha2, hlen⟩
    · obtain ⟨h1, h2, d, hd, hal⟩ := h.obs l hs
      refine ⟨h2, h1, Or.inl ⟨d, hd, ?_⟩⟩
      rw [hal.filter_self]; exact hal
    · obtain ⟨h1, h2, d, hd, hal⟩ := h.ax a ha1
      exact ⟨hnd, by omega, Or.inr ⟨h.obs_none hs, a, d, ha2, h2, h1, hd, hal⟩⟩) (by
    intro l hl
    rcases ha l hl with hs | ⟨hs, hnd, a, ha1, ha2, hlen⟩
    · obtain ⟨h1, h2, d, hd, hal⟩ := h.ax l hs
      refine ⟨h2, h1, Or.inl ⟨d, hd, ?_⟩⟩
      rw [hal.filter_self]; exact hal
    · obtain ⟨h1, h2, d, hd, hal⟩ := h.obs a ha1
      exact ⟨hnd, by omega, Or.inr ⟨h.ax_none hs, a, d, ha2, h2, h1, hd, hal⟩⟩) hm
  refine ⟨List.range lims.length, lims, picks_range lims, hinv, fun ho' o hso => ?_, fun ha' a hsa => ?_⟩
  · obtain ⟨l, hl⟩ := Option.isSome_iff_exists.1 ho'
    rcases ho l hl with hs | ⟨hs, -⟩
    · rw [hso] at hs
      cases hs
      refine ⟨o, by rw [hco]; exact hl, ?_⟩
      rw [← (h.obs o hso).1]; exact picks_range o
    · rw [hso] at hs; cases hs
  · obtain ⟨l, hl⟩ := Option.isSome_iff_exists.1 ha'
    rcases ha l hl with hs | ⟨hs, -⟩
    · rw [hsa] at hs
      cases hs
      refine ⟨a, by rw [hco]; exact hl, ?_⟩
      rw [← (h.ax a hsa).1]; exact picks_range a
    · rw [hsa] at hs; cases hs

theorem withObs_some_step {s s' : Space} {lims : List (Rat × Rat)} {l : List String} {sup sub : Bool}
    (h : Inv s lims) (hl : l.Nodup) (hm : s.withObs (some l) sup sub = .ok s') : StepRes s s' lims True True := by
  unfold Space.withObs at hm
  simp only [bind_eq_ok] at hm
  obtain ⟨c', hc', hm⟩ := hm
  cases hso : s.coords.obs with
  | some o =>
    obtain ⟨idx, h1, h2, h3, h4, h5, h6⟩ := coords_withObs_picks hso hc'
    refine copy_picked h h3 ?_ (by rw [hso]; intro hcon; cases hcon) ?_ h5 h6 hm
    · rw [h2]
      refine nodup_map_idxOf (hl.filter _) ?_
      intro x hx; simpa using (List.mem_filter.1 hx).2
    · intro o2 ho2
      rw [hso] at ho2
      cases ho2
      exact ⟨_, h1, h4⟩
  | none =>
    unfold Coords.withObs at hc'
    simp only [hso] at hc'
    have hc := make_coords hc'
    subst hc
    obtain ⟨a, hsa⟩ := Option.ne_none_iff_exists'.1 (h.some_coord.resolve_left (by simp [hso]))
    rw [hsa] at hc' hm
    obtain ⟨hlen, -⟩ := make_some_some hc'
    refine (copy_same h (some l) (some a) ?_ ?_ hm).mono (fun _ => rfl) (fun _ => rfl)
    · intro l2 hl2
      cases hl2
      exact Or.inr ⟨hso, hl, a, hsa, rfl, hlen⟩
    · intro l2 hl2
      cases hl2
      exact Or.inl hsa

theorem withObs_none_step {s s' : Space} {lims : List (Rat × Rat)} {sup sub : Bool}
    (h : Inv s lims) (hm : s.withObs none sup sub = .ok s') : StepRes s s' lims False True := by
  unfold Space.withObs at hm
  simp only at hm
  split at hm
  · cases hm; exact StepRes.refl h _ _
  · cases hm
  · rename_i a hso hsa
    refine (copy_same h none (some a) (by simp) ?_ hm).mono (by simp) (by simp)
    intro l hl
    cases hl
    exact Or.inl hsa

theorem withAxes_some_step {s s' : Space} {lims : List (Rat × Rat)} {l : List Int} {sup sub : Bool}
    (h : Inv s lims) (hl : l.Nodup) (hm : s.withAxes (some l) sup sub = .ok s') : StepRes s s' lims True True := by
  unfold Space.withAxes at hm
  simp only at hm
  cases hsa : s.coords.axes with
  | some a =>
    simp only [hsa, bind_eq_ok] at hm
    obtain ⟨c', hc', hm⟩ := hm
    obtain ⟨idx, h1, h2, h3, h4, h5, h6⟩ := coords_withAxes_picks hsa hc'
    refine copy_picked h h3 ?_ h5 h6 (by rw [hsa]; intro hcon; cases hcon) ?_ hm
    · rw [h2]
      refine nodup_map_idxOf (hl.filter _) ?_
      intro x hx; simpa using (List.mem_filter.1 hx).2
    · intro o2 ho2
      rw [hsa] at ho2
      cases ho2
      exact ⟨_, h1, h4⟩
  | none =>
    obtain ⟨o, hso⟩ := Option.ne_none_iff_exists'.1 (h.some_coord.resolve_right (by simp [hsa]))
    simp only [hsa, hso] at hm
    split at hm
    · cases hm
    · rename_i hlen
      refine (copy_same h (some o) (some l) ?_ ?_ hm).mono (fun _ => rfl) (fun _ => rfl)
      · intro l2 hl2
        cases hl2
        exact Or.inl hso
      · intro l2 hl2
        cases hl2
        exact Or.inr ⟨hsa, hl, o, hso, rfl, Decidable.not_not.1 hlen⟩

theorem withAxes_none_step {s s' : Space} {lims : List (Rat × Rat)} {sup sub : Bool}
    (h : Inv s lims) (hm : s.withAxes none sup sub = .ok s') : StepRes s s' lims True False := by
  unfold Space.withAxes at hm
  simp only at hm
  split at hm
  · cases hm; exact StepRes.refl h _ _
  · cases hm
  · rename_i o hsa hso
    refine (copy_same h (some o) none ?_ (by simp) hm).mono (by simp) (by simp)
    intro l hl
    cases hl
    exact Or.inl hso

theorem rangeAxes_nodup (n : Nat) : (rangeAxes n).Nodup := by
  unfold rangeAxes
  exact List.Nodup.map (fun a b h => Int.ofNat.inj h) List.nodup_range

theorem autofill_step {s s' : Space} {lims : List (Rat × Rat)} {ow : Bool} (h : Inv s lims)
    (how : ow = true → s.coords.axes = none) (hm : s.withAutofillAxes ow = .ok s') :
    StepRes s s' lims True True := by
  unfold Space.withAutofillAxes at hm
  simp only [bind_eq_ok] at hm
  obtain ⟨c', hc', hm⟩ := hm
  cases hsa : s.coords.axes with
  | some a =>
    have : ow = false := by
      cases ow
      · rfl
      · rw [how rfl] at hsa; cases hsa
    subst this
    simp only [hsa, Option.isNone_some, Bool.or_self, Bool.false_eq_true, if_false, except_pure,
      Except.ok.injEq] at hm
    subst hm
    exact StepRes.refl h _ _
  | none =>
    simp only [hsa, Option.isNone_none, Bool.true_or, if_true] at hm
    obtain ⟨o, hso⟩ := Option.ne_none_iff_exists'.1 (h.some_coord.resolve_right (by simp [hsa]))
    have hc : c'.axes = some (rangeAxes o.length) := by
      unfold Coords.withAutofillAxes at hc'
      split at hc'
      · cases hc'
      · have := make_coords hc'
        rw [this]
        simp [Coords.nObs, hso]
    rw [hc, hso] at hm
    refine (copy_same h (some o) (some (rangeAxes o.length)) ?_ ?_ hm).mono
      (fun _ => rfl) (fun _ => rfl)
    · intro l2 hl2
      cases hl2
      exact Or.inl hso
    · intro l2 hl2
      cases hl2
      exact Or.inr ⟨hsa, rangeAxes_nodup _, o, hso, rfl, by simp [rangeAxes]⟩

theorem Aligned.filter_sub [DecidableEq κ] {o l : List κ} {lims : List (Rat × Rat)} {d : List (κ × Lim)}
    (h : Aligned o lims d) : d.filter (fun p => decide (p.1 ∈ l)) =
      d.filter (fun p => decide (p.1 ∈ l.filter (· ∈ o))) := by
  apply List.filter_congr
  intro p hp
  obtain ⟨i, x, hi, -, -⟩ := h.1 p hp
  have := List.mem_of_getElem? hi
  simp [List.mem_filter, this]

theorem filter_filter_self [DecidableEq κ] (d : List (κ × Lim)) (l : List κ) :
    (d.filter (fun p => decide (p.1 ∈ l))).filter (fun p => decide (p.1 ∈ l)) =
      d.filter (fun p => decide (p.1 ∈ l)) := by
  rw [List.filter_filter]
  apply List.filter_congr
  intro p _
  simp

theorem subObs_step {s s' : Space} {lims : List (Rat × Rat)} {l : List String} (h : Inv s lims) (hl : l.Nodup)
    (hs : s.coords.obs ≠ none) (hm : s.subspaceObs l = .ok s') : StepRes s s' lims True True := by
  obtain ⟨o, hso⟩ := Option.ne_none_iff_exists'.1 hs
  obtain ⟨hlen, hno, d, hd, hal⟩ := h.obs o hso
  unfold Space.subspaceObs at hm
  simp only [bind_eq_ok] at hm
  obtain ⟨c', hc', hm⟩ := hm
  obtain ⟨idx, h1, h2, h3, h4, h5, h6⟩ := coords_withObs_picks hso hc'
  have hnd : idx.Nodup := by
    rw [h2]
    refine nodup_map_idxOf (hl.filter _) ?_
    intro x hx; simpa using (List.mem_filter.1 hx).2
  obtain ⟨lims', hpl, hne⟩ := picks_lims h4 hlen h3
  have hA := hal.filter hno h4 hpl
  simp only [extractLimits, hd, Option.getD_some] at hm
  rw [hal.filter_sub] at hm
  have hlen' : (l.filter (· ∈ o)).length = lims'.length := by rw [h4.length, hpl.length]
  obtain ⟨hinv, hco⟩ := make_inv c'.obs c'.axes hne (by
      intro l2 hl2
      rw [h1] at hl2
      cases hl2
      refine ⟨hl.filter _, hlen', Or.inl ⟨_, rfl, ?_⟩⟩
      rw [filter_filter_self]
      exact hA) (by
      intro l2 hl2
      cases hsa : s.coords.axes with
      | none => rw [h5 hsa] at hl2; cases hl2
      | some a =>
        obtain ⟨a', ha', hp⟩ := h6 a hsa
        rw [hl2] at ha'
        cases ha'
        exact ⟨hp.nodup (h.ax a hsa).2.1 hnd, by rw [hp.length, hpl.length],
          Or.inr ⟨rfl, _, _, h1, hl.filter _, hlen', rfl, hA⟩⟩) hm
  refine ⟨idx, lims', hpl, hinv, fun _ o2 ho2 => ?_, fun _ a ha => ?_⟩
  · rw [hso] at ho2
    cases ho2
    exact ⟨_, by rw [hco]; exact h1, h4⟩
  · obtain ⟨o', e1, e2⟩ := h6 a ha
    exact ⟨o', by rw [hco]; exact e1, e2⟩

theorem subAxes_step {s s' : Space} {lims : List (Rat × Rat)} {l : List Int} (h : Inv s lims) (hl : l.Nodup)
    (hs : s.coords.axes ≠ none) (hm : s.subspaceAxes l = .ok s') : StepRes s s' lims True True := by
  obtain ⟨o, hso⟩ := Option.ne_none_iff_exists'.1 hs
  obtain ⟨hlen, hno, d, hd, hal⟩ := h.ax o hso
  unfold Space.subspaceAxes at hm
  simp only [bind_eq_ok] at hm
  obtain ⟨c', hc', hm⟩ := hm
  obtain ⟨idx, h1, h2, h3, h4, h5, h6⟩ := coords_withAxes_picks hso hc'
  have hnd : idx.Nodup := by
    rw [h2]
    refine nodup_map_idxOf (hl.filter _) ?_
    intro x hx; simpa using (List.mem_filter.1 hx).2
  obtain ⟨lims', hpl, hne⟩ := picks_lims h4 hlen h3
  have hA := hal.filter hno h4 hpl
  simp only [extractLimits, hd, Option.getD_some] at hm
  rw [hal.filter_sub] at hm
  have hlen' : (l.filter (· ∈ o)).length = lims'.length := by rw [h4.length, hpl.length]
  obtain ⟨hinv, hco⟩ := make_inv c'.obs c'.axes hne (by
      intro l2 hl2
      cases hsa : s.coords.obs with
      | none => rw [h5 hsa] at hl2; cases hl2
      | some a =>
        obtain ⟨a', ha', hp⟩ := h6 a hsa
        rw [hl2] at ha'
        cases ha'
        exact ⟨hp.nodup (h.obs a hsa).2.1 hnd, by rw [hp.length, hpl.length],
          Or.inr ⟨rfl, _, _, h1, hl.filter _, hlen', rfl, hA⟩⟩) (by
      intro l2 hl2
      rw [h1] at hl2
      cases hl2
      refine ⟨hl.filter _, hlen', Or.inl ⟨_, rfl, ?_⟩⟩
      rw [filter_filter_self]
      exact hA) hm
  refine ⟨idx, lims', hpl, hinv, fun _ a ha => ?_, fun _ o2 ho2 => ?_⟩
  · obtain ⟨o', e1, e2⟩ := h6 a ha
    exact ⟨o', by rw [hco]; exact e1, e2⟩
  · rw [hso] at ho2
    cases ho2
    exact ⟨_, by rw [hco]; exact h1, h4⟩

theorem withCoords_axes_nodup {c c' : Coords} {o : Option (List String)} {sup sub : Bool}
    (hco : c.obs ≠ none) (hca : ∀ a, c.axes = some a → a.Nodup) (ho : o ≠ none)
    (hon : ∀ l, o = some l → l.Nodup) (h : c.withObs o sup sub = .ok c') :
    ∀ a, c'.axes = some a → a.Nodup := by
  obtain ⟨l, rfl⟩ := Option.ne_none_iff_exists'.1 ho
  obtain ⟨co, hco⟩ := Option.ne_none_iff_exists'.1 hco
  obtain ⟨idx, h1, h2, h3, h4, h5, h6⟩ := coords_withObs_picks hco h
  intro a ha
  cases hc : c.axes with
  | none => rw [h5 hc] at ha; cases ha
  | some a0 =>
    obtain ⟨a', ha', hp⟩ := h6 a0 hc
    rw [ha] at ha'
    cases ha'
    refine hp.nodup (hca a0 hc) ?_
    rw [h2]
    refine nodup_map_idxOf ((hon l rfl).filter _) ?_
    intro x hx; simpa using (List.mem_filter.1 hx).2

theorem withCoords_obs_nodup {c c' : Coords} {o : Option (List Int)} {sup sub : Bool}
    (hco : c.axes ≠ none) (hca : ∀ a, c.obs = some a → a.Nodup) (ho : o ≠ none)
    (hon : ∀ l, o = some l → l.Nodup) (h : c.withAxes o sup sub = .ok c') :
    ∀ a, c'.obs = some a → a.Nodup := by
  obtain ⟨l, rfl⟩ := Option.ne_none_iff_exists'.1 ho
  obtain ⟨co, hco⟩ := Option.ne_none_iff_exists'.1 hco
  obtain ⟨idx, h1, h2, h3, h4, h5, h6⟩ := coords_withAxes_picks hco h
  intro a ha
  cases hc : c.obs with
  | none => rw [h5 hc] at ha; cases ha
  | some a0 =>
    obtain ⟨a', ha', hp⟩ := h6 a0 hc
    rw [ha] at ha'
    cases ha'
    refine hp.nodup (hca a0 hc) ?_
    rw [h2]
    refine nodup_map_idxOf ((hon l rfl).filter _) ?_
    intro x hx; simpa using (List.mem_filter.1 hx).2

theorem withCoords_step {s s' : Space} {lims : List (Rat × Rat)} {c : Coords} {sup sub : Bool}
    (h : Inv s lims) (hco : ∀ l, c.obs = some l → l.Nodup) (hca : ∀ l, c.axes = some l → l.Nodup)
    (hm : s.withCoords c sup sub = .ok s') : StepRes s s' lims True (c.obs = none ∨ c.axes = none) := by
  unfold Space.withCoords at hm
  split at hm
  · rename_i so co hso hcob
    simp only [bind_eq_ok] at hm
    obtain ⟨s1, hs1, hm⟩ := hm
    have st1 := withObs_some_step h (hco co hcob) hs1
    split at hm
    · cases hm
      exact st1.mono (fun _ => trivial) (fun _ => trivial)
    · rename_i ca hcax
      simp only [bind_eq_ok] at hm
      obtain ⟨s2, hs2, c', hc', hm⟩ := hm
      have st2 : StepRes s s2 lims True False := by
        have := st1.trans (s'' := s2) (ko' := True) (ka' := False) (by
          intro lims1 hi1
          unfold Space.dropAxes at hs2
          split at hs2
          · exact withAxes_none_step hi1 hs2
          · cases hs2; exact StepRes.refl hi1 _ _)
        exact this.mono (fun _ => ⟨trivial, trivial⟩) (fun h => h.elim)
      have st3 := st2.trans (s'' := s') (ko' := True) (ka' := False) (by
        intro lims2 hi2
        obtain ⟨_, _, _, _, ho2, _⟩ := st2
        obtain ⟨o2, ho2, -⟩ := ho2 trivial so hso
        have hnd := withCoords_axes_nodup (by rw [hcob]; simp) hca (by rw [ho2]; simp) (by
          intro l hl
          exact (hi2.obs l hl).2.1) hc'
        cases hca' : c'.axes with
        | none =>
          rw [hca'] at hm
          exact withAxes_none_step hi2 hm
        | some a =>
          rw [hca'] at hm
          exact (withAxes_some_step hi2 (hnd a hca') hm).mono (fun _ => trivial) (fun h => h.elim))
      refine st3.mono (fun _ => ⟨trivial, trivial⟩) ?_
      rintro (hn | hn)
      · rw [hcob] at hn; cases hn
      · rw [hcax] at hn; cases hn
  · rename_i hnot
    split at hm
    · rename_i sa ca hsa hcax
      simp only [bind_eq_ok] at hm
      obtain ⟨s1, hs1, hm⟩ := hm
      have st1 := withAxes_some_step h (hca ca hcax) hs1
      split at hm
      · cases hm
        exact st1.mono (fun _ => trivial) (fun _ => trivial)
      · rename_i co hcob
        simp only [bind_eq_ok] at hm
        obtain ⟨c', hc', hm⟩ := hm
        have hso : s.coords.obs = none := by
          cases hso : s.coords.obs with
          | none => rfl
          | some so => exact (hnot so co hso hcob).elim
        have st3 := st1.trans (s'' := s') (ko' := False) (ka' := True) (by
          intro lims2 hi2
          obtain ⟨_, _, _, _, _, ho2⟩ := st1
          obtain ⟨o2, ho2, -⟩ := ho2 trivial sa hsa
          have hnd := withCoords_obs_nodup (by rw [hcax]; simp) hco (by rw [ho2]; simp) (by
            intro l hl
            exact (hi2.ax l hl).2.1) hc'
          cases hca' : c'.obs with
          | none =>
            rw [hca'] at hm
            exact withObs_none_step hi2 hm
          | some a =>
            rw [hca'] at hm
            exact (withObs_some_step hi2 (hnd a hca') hm).mono (fun h => h.elim) (fun _ => trivial))
        obtain ⟨idx, lims', e1, e2, -, e4⟩ := st3
        exact ⟨idx, lims', e1, e2, (fun _ o ho => by rw [hso] at ho; cases ho), fun _ => e4 ⟨trivial, trivial⟩⟩
    · cases hm

/-! ### Reading the limits -/

theorem Aligned.rect {keys : List κ} {lims : List (Rat × Rat)} {d : List (κ × Lim)} (h : Aligned keys lims d) :
    ∃ ls, d.mapM (fun p => p.2.rectLimits) = .ok ls := by
  apply mapM_ok_of_forall_exists
  intro p hp
  obtain ⟨i, l, -, -, hl⟩ := h.1 p hp
  exact ⟨(l.1, l.2), by rw [hl]; rfl⟩

theorem Aligned.gather [DecidableEq κ] {own : List κ} {lims ls : List (Rat × Rat)} {d : List (κ × Lim)}
    (h : Aligned own lims d) (hn : own.Nodup) (hlen : own.length = lims.length)
    (hls : d.mapM (fun p => p.2.rectLimits) = .ok ls) (f : Rat × Rat → Rat) :
    gatherRow (ls.map f) (own.map (d.map (·.1)).idxOf) = .ok (lims.map f) := by
  apply mapM_pyGet_ok.2
  apply List.ext_getElem?
  intro j
  simp only [List.getElem?_map]
  cases hj : own[j]? with
  | none =>
    have : own.length ≤ j := by simpa using hj
    rw [List.getElem?_eq_none (by omega)]
    rfl
  | some k =>
    have hk : k ∈ d.map (·.1) := h.2 k (List.mem_of_getElem? hj)
    have h1 := getElem?_idxOf_mem hk
    generalize hi : (d.map (·.1)).idxOf k = i at h1
    rw [List.getElem?_map] at h1
    cases hd : d[i]? with
    | none => rw [hd] at h1; simp at h1
    | some p =>
      rw [hd] at h1
      simp only [Option.map_some, Option.some.injEq] at h1
      obtain ⟨i', l, e1, e2, e3⟩ := h.1 p (List.mem_of_getElem? hd)
      rw [h1] at e1
      have := nodup_getElem?_inj hn e1 hj
      subst this
      obtain ⟨y, hy, hy'⟩ := mapM_ok_getElem? hls hd
      rw [e3] at hy'
      simp only [Lim.rectLimits, Except.ok.injEq] at hy'
      subst hy'
      simp [hi, hy, e2]

theorem Aligned.values_rect {keys : List κ} {lims : List (Rat × Rat)} {d : List (κ × Lim)} (h : Aligned keys lims d) :
    ∀ l ∈ d.map (·.2), ∃ lo hi, l = Lim.rect lo hi := by
  intro l hl
  obtain ⟨p, hp, rfl⟩ := List.mem_map.1 hl
  obtain ⟨i, x, -, -, hx⟩ := h.1 p hp
  exact ⟨_, _, hx⟩

theorem Aligned.ne_nil {keys : List κ} {lims : List (Rat × Rat)} {d : List (κ × Lim)} (h : Aligned keys lims d)
    (hne : keys ≠ []) : d ≠ [] := by
  rintro rfl
  cases keys with
  | nil => exact hne rfl
  | cons k ks => simpa using h.2 k List.mem_cons_self

theorem Inv.limValues {s : Space} {lims : List (Rat × Rat)} (h : Inv s lims) :
    (∀ l ∈ s.limValues, ∃ lo hi, l = Lim.rect lo hi) ∧ s.limValues ≠ [] := by
  unfold Space.limValues
  cases ho : s.coords.obs with
  | some o =>
    obtain ⟨hlen, -, d, hd, hal⟩ := h.obs o ho
    simp only [hd, Option.getD_some]
    refine ⟨hal.values_rect, ?_⟩
    have : o ≠ [] := by
      rintro rfl
      exact h.ne (List.length_eq_zero_iff.1 hlen.symm)
    simpa using hal.ne_nil this
  | none =>
    obtain ⟨a, ha⟩ := Option.ne_none_iff_exists'.1 (h.some_coord.resolve_left (by simp [ho]))
    obtain ⟨hlen, -, d, hd, hal⟩ := h.ax a ha
    simp only [hd, Option.getD_some]
    refine ⟨hal.values_rect, ?_⟩
    have : a ≠ [] := by
      rintro rfl
      exact h.ne (List.length_eq_zero_iff.1 hlen.symm)
    simpa using hal.ne_nil this

theorem Inv.hasLimits {s : Space} {lims : List (Rat × Rat)} (h : Inv s lims) :
    s.hasLimits = true ∧ s.hasRectLimits = true := by
  obtain ⟨h1, h2⟩ := h.limValues
  obtain ⟨l0, hl0⟩ := List.exists_mem_of_ne_nil _ h2
  have e1 : s.limValues.all Lim.isSet = true := by
    rw [List.all_eq_true]; intro l hl; obtain ⟨_, _, rfl⟩ := h1 l hl; rfl
  have e2 : s.limValues.all Lim.hasRect = true := by
    rw [List.all_eq_true]; intro l hl; obtain ⟨_, _, rfl⟩ := h1 l hl; rfl
  have e3 : s.limValues.all Lim.isFalse = false := by
    rw [List.all_eq_false]; refine ⟨l0, hl0, ?_⟩; obtain ⟨_, _, rfl⟩ := h1 l0 hl0; simp [Lim.isFalse]
  constructor
  · simp [Space.hasLimits, Space.limitsAreSet, Space.limitsAreFalse, e1, e3]
  · simp [Space.hasRectLimits, e2, h2]

theorem Inv.rectLimitsZ {s : Space} {lims : List (Rat × Rat)} (h : Inv s lims) :
    s.rectLimitsZ = .ok (lims.map (·.1), lims.map (·.2)) := by
  unfold Space.rectLimitsZ
  cases ho : s.coords.obs with
  | some o =>
    obtain ⟨hlen, hn, d, hd, hal⟩ := h.obs o ho
    have hne : falsy (some o) = false := by
      cases o with
      | nil => exact (h.ne (List.length_eq_zero_iff.1 hlen.symm)).elim
      | cons _ _ => rfl
    obtain ⟨ls, hls⟩ := hal.rect
    have hsub : ∀ k ∈ o, k ∈ d.map (·.1) := hal.2
    simp [hd, hls, Coords.reorderX, ho, hne, reorderIndices_ok_of_subset hsub, Coord.gather,
      hal.gather hn hlen hls]
  | none =>
    obtain ⟨a, ha⟩ := Option.ne_none_iff_exists'.1 (h.some_coord.resolve_left (by simp [ho]))
    obtain ⟨hlen, hn, d, hd, hal⟩ := h.ax a ha
    have hne : falsy (some a) = false := by
      cases a with
      | nil => exact (h.ne (List.length_eq_zero_iff.1 hlen.symm)).elim
      | cons _ _ => rfl
    obtain ⟨ls, hls⟩ := hal.rect
    have hsub : ∀ k ∈ a, k ∈ d.map (·.1) := hal.2
    simp [hd, hls, Coords.reorderX, ha, hne, reorderIndices_ok_of_subset hsub, Coord.gather,
      hal.gather hn hlen hls]

theorem Inv.rectLimits {s : Space} {lims : List (Rat × Rat)} (h : Inv s lims) :
    s.rectLimits = .ok (lims.map (·.1), lims.map (·.2)) := by
  unfold Space.rectLimits
  simp [h.hasLimits.1, h.hasLimits.2, h.rectLimitsZ]

/-! ### Points inside -/

/-- The column of a key tested against its interval. -/
def testKey [DecidableEq κ] (own : List κ) (p : κ × Lim) (row : List Rat) : Bool :=
  match row[own.idxOf p.1]?, p.2 with
  | some v, .rect lo hi => decide (v ≤ hi) && decide (lo ≤ v)
  | _, _ => false

theorem allMasks_map {γ δ : Type} (rows : List γ) (d : List δ) (t : δ → γ → Bool) :
    allMasks rows.length (d.map (fun p => rows.map (t p))) = rows.map (fun r => d.all (t · r)) := by
  have key : ∀ (d : List δ) (g : γ → Bool),
      (d.map (fun p => rows.map (t p))).foldl (fun acc m => List.zipWith (· && ·) acc m) (rows.map g) =
        rows.map (fun r => g r && d.all (t · r)) := by
    intro d
    induction d with
    | nil => intro g; simp
    | cons p d ih =>
      intro g
      have : List.zipWith (· && ·) (rows.map g) (rows.map (t p)) = rows.map (fun r => g r && t p r) := by
        rw [List.zipWith_map]
        induction rows <;> simp_all
      simp only [List.map_cons, List.foldl_cons, this, ih, List.all_cons, Bool.and_assoc]
  have := key d (fun _ => true)
  simp only [Bool.true_and] at this
  unfold allMasks
  rw [← this]
  congr 1
  induction rows <;> simp_all [List.replicate_succ]

theorem Aligned.inBox [DecidableEq κ] {own : List κ} {lims : List (Rat × Rat)} {d : List (κ × Lim)}
    (h : Aligned own lims d) (hn : own.Nodup) (hlen : own.length = lims.length) {row : List Rat}
    (hrow : row.length = own.length) :
    d.all (testKey own · row) = inBox (lims.map (·.1)) (lims.map (·.2)) row := by
  rw [Bool.eq_iff_iff]
  unfold Sp.inBox
  simp only [List.all_eq_true]
  have hz : (lims.map (·.1)).zip (lims.map (·.2)) = lims := by
    induction lims generalizing own d row with
    | nil => rfl
    | cons l ls ih => clear ih h hrow hlen hn; simp [List.zip_map']
  rw [hz]
  constructor
  · intro hall q hq
    obtain ⟨i, hi⟩ := List.mem_iff_getElem?.1 hq
    rw [List.getElem?_zip_eq_some] at hi
    obtain ⟨h1, h2⟩ := hi
    have hil : i < own.length := by
      rw [hlen]; exact (List.getElem?_eq_some_iff.1 h2).1
    have hk : own[i] ∈ d.map (·.1) := h.2 _ (List.getElem_mem hil)
    obtain ⟨p, hp, hpk⟩ := List.mem_map.1 hk
    obtain ⟨j, l, e1, e2, e3⟩ := h.1 p hp
    have hji : j = i := nodup_getElem?_inj hn e1 (by rw [hpk]; exact List.getElem?_eq_getElem hil)
    subst hji
    rw [h2] at e2
    cases e2
    have ht := hall p hp
    have hidx : own.idxOf p.1 = j := by
      rw [hpk]
      exact nodup_getElem?_inj hn (getElem?_idxOf_mem (List.getElem_mem hil)) (List.getElem?_eq_getElem hil)
    simp only [testKey, hidx, h1, e3, Bool.and_eq_true, decide_eq_true_eq] at ht
    simp [ht]
  · intro hall p hp
    obtain ⟨j, l, e1, e2, e3⟩ := h.1 p hp
    have hmem : p.1 ∈ own := List.mem_of_getElem? e1
    have hidx : own.idxOf p.1 = j := nodup_getElem?_inj hn (getElem?_idxOf_mem hmem) e1
    have hjr : j < row.length := by
      rw [hrow]; exact (List.getElem?_eq_some_iff.1 e1).1
    have := hall (row[j], l) (List.mem_iff_getElem?.2 ⟨j, by
      rw [List.getElem?_zip_eq_some]; exact ⟨List.getElem?_eq_getElem hjr, e2⟩⟩)
    simp only [Bool.and_eq_true, decide_eq_true_eq] at this
    simp [testKey, hidx, List.getElem?_eq_getElem hjr, e3, this]

theorem gather_single {rows : List (List Rat)} {n i : Nat} (hi : i < n) (hrow : ∀ row ∈ rows, row.length = n) :
    Coord.gather rows [i] = .ok (rows.map (fun row => [(row[i]?).getD 0])) := by
  unfold Coord.gather
  apply mapM_ok_of_forall
  intro row hr
  have : i < row.length := by rw [hrow row hr]; exact hi
  simp [gatherRow, pyGet, List.getElem?_eq_getElem this]

theorem Inv.insideRaw {s : Space} {lims : List (Rat × Rat)} (h : Inv s lims) {rows : List (List Rat)}
    (hrow : ∀ row ∈ rows, row.length = lims.length) :
    s.insideRaw rows = .ok (rows.map (inBox (lims.map (·.1)) (lims.map (·.2)))) := by
  unfold Space.insideRaw
  have gen : ∀ {κ : Type} [DecidableEq κ] (own : List κ) (d : List (κ × Lim)), Aligned own lims d → own.Nodup →
      own.length = lims.length → ∀ p ∈ d, own.idxOf p.1 < lims.length ∧
      p.2.inside (rows.map (fun row => [(row[own.idxOf p.1]?).getD 0])) = .ok (rows.map (testKey own p)) := by
    intro κ _ own d hal hn hlen p hp
    obtain ⟨j, l, e1, e2, e3⟩ := hal.1 p hp
    have hmem : p.1 ∈ own := List.mem_of_getElem? e1
    have hlt : own.idxOf p.1 < lims.length := by
      rw [← hlen]; exact List.idxOf_lt_length_iff.2 hmem
    refine ⟨hlt, ?_⟩
    rw [e3]
    simp only [Lim.inside, List.map_map, Except.ok.injEq]
    apply List.map_congr_left
    intro row hr
    have : own.idxOf p.1 < row.length := by rw [hrow row hr]; exact hlt
    simp [insideRow, testKey, List.getElem?_eq_getElem this, e3]
  cases ho : s.coords.obs with
  | some o =>
    obtain ⟨hlen, hn, d, hd, hal⟩ := h.obs o ho
    have hne : falsy (some o) = false := by
      cases o with
      | nil => exact (h.ne (List.length_eq_zero_iff.1 hlen.symm)).elim
      | cons _ _ => rfl
    have hm : d.mapM (fun p => do
        let sub ← s.coords.reorderX rows none none (some [p.1]) none
        p.2.inside sub) = .ok (d.map (fun p => rows.map (testKey o p))) := by
      apply mapM_ok_of_forall
      intro p hp
      obtain ⟨hlt, hin⟩ := gen o d hal hn hlen p hp
      obtain ⟨j, l, e1, -, -⟩ := hal.1 p hp
      have hsub : ∀ x ∈ [p.1], x ∈ o := by simpa using List.mem_of_getElem? e1
      simp [Coords.reorderX, ho, hne, reorderIndices_ok_of_subset hsub, gather_single hlt hrow, hin]
    simp only [hd, Option.getD_some, hm, except_bind_ok, except_pure, Except.ok.injEq, allMasks_map]
    apply List.map_congr_left
    intro row hr
    exact hal.inBox hn hlen (by rw [hrow row hr, hlen])
  | none =>
    obtain ⟨o, ha⟩ := Option.ne_none_iff_exists'.1 (h.some_coord.resolve_left (by simp [ho]))
    obtain ⟨hlen, hn, d, hd, hal⟩ := h.ax o ha
    have hne : falsy (some o) = false := by
      cases o with
      | nil => exact (h.ne (List.length_eq_zero_iff.1 hlen.symm)).elim
      | cons _ _ => rfl
    have hm : d.mapM (fun p => do
        let sub ← s.coords.reorderX rows none none none (some [p.1])
        p.2.inside sub) = .ok (d.map (fun p => rows.map (testKey o p))) := by
      apply mapM_ok_of_forall
      intro p hp
      obtain ⟨hlt, hin⟩ := gen o d hal hn hlen p hp
      obtain ⟨j, l, e1, -, -⟩ := hal.1 p hp
      have hsub : ∀ x ∈ [p.1], x ∈ o := by simpa using List.mem_of_getElem? e1
      simp [Coords.reorderX, ha, hne, reorderIndices_ok_of_subset hsub, gather_single hlt hrow, hin]
    simp only [hd, Option.getD_some, hm, except_bind_ok, except_pure, Except.ok.injEq, allMasks_map]
    apply List.map_congr_left
    intro row hr
    exact hal.inBox hn hlen (by rw [hrow row hr, hlen])

/-! ### Construction and chains -/

theorem make_rect_inv {o : Option (List String)} {a : Option (List Int)} {lower upper : List Rat} {s : Space}
    (ho : ∀ l, o = some l → l.Nodup) (ha : ∀ l, a = some l → l.Nodup)
    (h : Space.make o a (.rect lower upper) = .ok s) :
    Inv s (lower.zip upper) ∧ s.coords = ⟨o, a⟩ ∧ lower.length = upper.length ∧
      ∀ l ∈ lower.zip upper, l.1 < l.2 := by
  have h0 := h
  unfold Space.make at h
  simp only [bind_eq_ok] at h
  obtain ⟨c, hc, pieces, hp, hrest⟩ := h
  have hcc := make_coords hc
  subst hcc
  simp only [limitPieces] at hp
  split at hp
  · cases hp
  split at hp
  · cases hp
  split at hp
  · cases hp
  rename_i hl1 hl2 hl3
  have hl1 := Decidable.not_not.1 hl1
  have hl2 := Decidable.not_not.1 hl2
  have hl3 := Decidable.not_not.1 hl3
  cases hp
  have hz : List.zipWith Lim.rect lower upper = (lower.zip upper).map (fun l => Lim.rect l.1 l.2) := by
    rw [List.zip, List.map_zipWith]
  have hlen : (lower.zip upper).length = lower.length := by simp [hl1]
  have hm : Space.make o a (.dict (o.map (buildDict · (List.zipWith Lim.rect lower upper)))
      (a.map (buildDict · (List.zipWith Lim.rect lower upper)))) = .ok s := by
    unfold Space.make
    simp only [hc, except_bind_ok]
    simpa only [bind_eq_ok] using hrest
  have hoa : ∀ l, o = some l → l.length = lower.length := by
    intro l hl
    subst hl
    rw [hl2]
    rfl
  have hal : ∀ l, a = some l → l.length = lower.length := by
    intro l hl
    subst hl
    rw [hl2]
    cases o with
    | none => rfl
    | some o => exact (make_some_some hc).1.symm
  have hne : lower.zip upper ≠ [] := by
    intro hcon
    have : lower.length = 0 := by rw [← hlen, hcon]; rfl
    cases o with
    | some l =>
      have := hoa l rfl
      have hl0 : l = [] := List.length_eq_zero_iff.1 (by omega)
      subst hl0
      cases a with
      | none => simp [Coords.make, falsy] at hc
      | some a =>
        have := hal a rfl
        have ha0 : a = [] := List.length_eq_zero_iff.1 (by omega)
        subst ha0
        simp [Coords.make, falsy] at hc
    | none =>
      cases a with
      | none => simp [Coords.make] at hc
      | some a =>
        have := hal a rfl
        have ha0 : a = [] := List.length_eq_zero_iff.1 (by omega)
        subst ha0
        simp [Coords.make, falsy] at hc
  have hdict : ∀ {κ : Type} [DecidableEq κ] (l : List κ), l.Nodup → l.length = lower.length →
      Aligned l (lower.zip upper)
        ((buildDict l (List.zipWith Lim.rect lower upper)).filter (fun p => decide (p.1 ∈ l))) := by
    intro κ _ l hn hll
    have : Aligned l (lower.zip upper) (buildDict l (List.zipWith Lim.rect lower upper)) := by
      rw [hz, buildDict_eq hn]
      exact aligned_zip (by rw [hlen, hll])
    rw [this.filter_self]
    exact this
  obtain ⟨e1, e2⟩ := make_inv (s' := s) o a hne (by
    intro l hl
    exact ⟨ho l hl, by rw [hlen, hoa l hl], Or.inl ⟨_, by rw [hl]; rfl, hdict l (ho l hl) (hoa l hl)⟩⟩) (by
    intro l hl
    exact ⟨ha l hl, by rw [hlen, hal l hl], Or.inl ⟨_, by rw [hl]; rfl, hdict l (ha l hl) (hal l hl)⟩⟩) hm
  refine ⟨e1, e2, hl1, ?_⟩
  intro l hl
  rw [List.all_eq_true] at hl3
  have : decide (l.1 < l.2) ∈ List.zipWith (fun l u => decide (l < u)) lower upper := by
    rw [show List.zipWith (fun l u => decide (l < u)) lower upper =
      (lower.zip upper).map (fun p => decide (p.1 < p.2)) from by rw [List.zip, List.map_zipWith]]
    exact List.mem_map.2 ⟨l, hl, rfl⟩
  simpa using hl3 _ this

theorem Picks.map {β : Type} {idx : List Nat} {l l' : List α} (h : Picks idx l l') (f : α → β) :
    Picks idx (l.map f) (l'.map f) := by
  unfold Picks at *
  have := congrArg (List.map (Option.map f)) h
  simpa [List.map_map, Function.comp_def] using this

theorem Picks.dictGet [DecidableEq α] {β : Type} {idx : List Nat} {o o' : List α} {v v' : List β}
    (h : Picks idx o o') (hn : o.Nodup) (hv : Picks idx v v') (hlen : o.length = v.length) (x : α) (hx : x ∈ o') :
    Zfit.dictGet (o'.zip v') x = Zfit.dictGet (o.zip v) x := by
  rw [dictGet_zip (by rw [h.length, hv.length]) hx, dictGet_zip hlen (h.mem x hx)]
  have h1 := getElem?_idxOf_mem hx
  rw [h.getElem?] at h1
  rw [hv.getElem?]
  cases hi : idx[o'.idxOf x]? with
  | none => rw [hi] at h1; simp at h1
  | some i =>
    rw [hi] at h1
    simp only [Option.bind_some] at h1 ⊢
    rw [nodup_getElem?_inj hn h1 (getElem?_idxOf_mem (h.mem x hx))]

theorem make_rect_length {o : List String} {a : Option (List Int)} {lower upper : List Rat} {s : Space}
    (h : Space.make (some o) a (.rect lower upper) = .ok s) : o.length = lower.length := by
  unfold Space.make at h
  simp only [bind_eq_ok] at h
  obtain ⟨c, hc, pieces, hp, -⟩ := h
  have hcc := make_coords hc
  subst hcc
  simp only [limitPieces] at hp
  split at hp
  · cases hp
  split at hp
  · cases hp
  · rename_i h2
    exact (Decidable.not_not.1 h2).symm

theorem Inv.nObs {s : Space} {lims : List (Rat × Rat)} (h : Inv s lims) : s.coords.nObs = lims.length := by
  unfold Coords.nObs
  cases ho : s.coords.obs with
  | some o => exact (h.obs o ho).1
  | none =>
    obtain ⟨a, ha⟩ := Option.ne_none_iff_exists'.1 (h.some_coord.resolve_left (by simp [ho]))
    simp only [ha]
    exact (h.ax a ha).1

theorem booleanMask_map {γ : Type} (rows : List γ) (f : γ → Bool) :
    booleanMask rows (rows.map f) = rows.filter f := by
  induction rows with
  | nil => rfl
  | cons r rows ih => simp [booleanMask, List.filter_cons, ih]

theorem apply_step {s s' : Space} {lims : List (Rat × Rat)} {r : SReq} (h : Inv s lims) (hd : r.Distinct)
    (hr : r.Meaningful s.coords) (hm : s.apply r = .ok s') : StepRes s s' lims (¬ r.DropsObs) (¬ r.DropsAxes) := by
  cases r with
  | withObs l sup sub =>
    cases l with
    | none => exact (withObs_none_step (sup := sup) (sub := sub) h hm).mono (fun h => h trivial) (fun _ => trivial)
    | some l => exact (withObs_some_step h hd hm).mono (fun _ => trivial) (fun _ => trivial)
  | withAxes l sup sub =>
    cases l with
    | none => exact (withAxes_none_step (sup := sup) (sub := sub) h hm).mono (fun _ => trivial) (fun h => h trivial)
    | some l => exact (withAxes_some_step h hd hm).mono (fun _ => trivial) (fun _ => trivial)
  | withCoords c sup sub =>
    refine (withCoords_step h hd.1 hd.2 hm).mono (fun _ => trivial) ?_
    intro hn
    simp only [SReq.DropsAxes, not_and_or, Decidable.not_not, ne_eq] at hn
    exact hn
  | autofill ow =>
    refine (autofill_step h ?_ hm).mono (fun _ => trivial) (fun _ => trivial)
    rintro rfl
    exact hr
  | subObs l => exact (subObs_step h hd hr hm).mono (fun _ => trivial) (fun _ => trivial)
  | subAxes l => exact (subAxes_step h hd hr hm).mono (fun _ => trivial) (fun _ => trivial)

theorem applyAll_step {s s' : Space} {lims : List (Rat × Rat)} {rs : List SReq} (h : Inv s lims)
    (hd : ∀ r ∈ rs, r.Distinct) (hr : MeaningfulChain s rs) (hm : s.applyAll rs = .ok s') :
    StepRes s s' lims (∀ r ∈ rs, ¬ r.DropsObs) (∀ r ∈ rs, ¬ r.DropsAxes) := by
  induction rs generalizing s lims with
  | nil => cases hm; exact StepRes.refl h _ _
  | cons r rs ih =>
    simp only [Space.applyAll, bind_eq_ok] at hm
    obtain ⟨s1, h1, h2⟩ := hm
    refine ((apply_step h (hd r List.mem_cons_self) hr.1 h1).trans (fun lims' h' =>
      ih h' (fun r hr => hd r (List.mem_cons_of_mem _ hr)) (hr.2 s1 h1) h2)).mono ?_ ?_
    · exact fun hall => ⟨hall r List.mem_cons_self, fun r hr => hall r (List.mem_cons_of_mem _ hr)⟩
    · exact fun hall => ⟨hall r List.mem_cons_self, fun r hr => hall r (List.mem_cons_of_mem _ hr)⟩

end Zfit.Sp
