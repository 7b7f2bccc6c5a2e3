import Verif.Space.CombineLemmas
import Mathlib.Tactic.Linarith

/-!
# Properties C04 (spaces) and C07 (see /verif/properties.jsonl)

`Created s` (CombineSpec.lean): `s` was created with distinct observables and rectangular limits and then reordered in
any way.  `limOf s x`: the limits of the observable `x` in `s`.  `closeLim`: both bounds agree within `1e-8`.
-/

namespace Zfit.Sp

open Zfit Zfit.Coord

/-! ## C04: equality of spaces -/

/-- C04.  Comparing two spaces always gives an answer, and the answer is: the same observables (in whatever order, and
whatever the axes), each with the same limits within the tolerance. -/
theorem space_eq_iff (s t : Space) (hs : Created s) (ht : Created t) :
    ∃ b, s.eq t = .ok b ∧ (b = true ↔ (∀ x, x ∈ obsOf s ↔ x ∈ obsOf t) ∧
      ∀ x ∈ obsOf s, closeLim (limOf s x) (limOf t x)) :=
  hs.good.eq ht.good

/-- C04: equality is reflexive and symmetric. -/
theorem space_eq_refl_symm (s t : Space) (hs : Created s) (ht : Created t) :
    s.eq s = .ok true ∧ s.eq t = t.eq s := by
  constructor
  · obtain ⟨b, h1, h2⟩ := space_eq_iff s s hs hs
    rw [h1, h2.2 ⟨fun _ => Iff.rfl, fun _ _ => closeLim_refl _⟩]
  · obtain ⟨b, h1, h2⟩ := space_eq_iff s t hs ht
    obtain ⟨b', h1', h2'⟩ := space_eq_iff t s ht hs
    rw [h1, h1']
    congr 1
    rw [Bool.eq_iff_iff, h2, h2']
    constructor
    · rintro ⟨e1, e2⟩
      exact ⟨fun x => (e1 x).symm, fun x hx => closeLim_symm (e2 x ((e1 x).2 hx))⟩
    · rintro ⟨e1, e2⟩
      exact ⟨fun x => (e1 x).symm, fun x hx => closeLim_symm (e2 x ((e1 x).2 hx))⟩

/-- C04: a reordering that keeps all observables gives an equal space. -/
theorem reordered_is_equal (s s' : Space) (l : List String) (hl : l.Nodup) (hs : Created s)
    (h : s.withObs (some l) false false = .ok s') : s.eq s' = .ok true := by
  have hg := hs.good
  have hsame : (∀ x ∈ l, x ∈ obsOf s) ∧ ∀ x ∈ obsOf s, x ∈ l := by
    by_contra hcon
    have := withObs_mismatch (c := s.coords) (o := obsOf s) hg.1 hcon
    simp [Space.withObs, this] at h
  have hany : ∃ x ∈ l, x ∈ obsOf s := by
    obtain ⟨x, hx⟩ := List.exists_mem_of_ne_nil _ hg.ne_nil
    exact ⟨x, hsame.2 x hx, hx⟩
  obtain ⟨s1, h1, hn⟩ := Named.withObs hg hl (sup := false) (sub := false) hany (Or.inr hsame.1) (Or.inr hsame.2)
  rw [h] at h1
  cases h1
  rw [filter_self_of_subset hsame.1] at hn
  obtain ⟨b, e1, e2⟩ := hg.eq hn
  rw [e1, e2.2 ⟨fun x => ⟨hsame.2 x, hsame.1 x⟩, fun _ _ => closeLim_refl _⟩]

/-- C04: equality is transitive up to the tolerance: limits of spaces equal to a common one differ by less than twice
the tolerance.  Missing for full transitivity: the factor two (see `space_eq_transitive_violated`). -/
theorem space_eq_transitive_partial (s t u : Space) (hs : Created s) (ht : Created t) (hu : Created u)
    (h1 : s.eq t = .ok true) (h2 : t.eq u = .ok true) :
    (∀ x, x ∈ obsOf s ↔ x ∈ obsOf u) ∧ ∀ x ∈ obsOf s,
      |(limOf s x).1 - (limOf u x).1| < 2 / 100000000 ∧ |(limOf s x).2 - (limOf u x).2| < 2 / 100000000 := by
  obtain ⟨b, e1, e2⟩ := space_eq_iff s t hs ht
  obtain ⟨b', e1', e2'⟩ := space_eq_iff t u ht hu
  rw [h1] at e1
  rw [h2] at e1'
  cases e1
  cases e1'
  obtain ⟨a1, a2⟩ := e2.1 rfl
  obtain ⟨b1, b2⟩ := e2'.1 rfl
  refine ⟨fun x => (a1 x).trans (b1 x), fun x hx => ?_⟩
  obtain ⟨c1, c2⟩ := a2 x hx
  obtain ⟨d1, d2⟩ := b2 x ((a1 x).1 hx)
  constructor
  · have := abs_sub_le (limOf s x).1 (limOf t x).1 (limOf u x).1
    linarith
  · have := abs_sub_le (limOf s x).2 (limOf t x).2 (limOf u x).2
    linarith

/-- C04: spaces without limits (`None`) or with limits `False` compare by their observables and by which of the two it
is; they never equal a space with limits. -/
theorem space_eq_without_limits (o o' : List String) (f f' : Bool) (s t : Space)
    (hs : Space.make (some o) none (if f then .false else .none) = .ok s)
    (ht : Space.make (some o') none (if f' then .false else .none) = .ok t) :
    s.eq t = .ok (o.all (· ∈ o') && o'.all (· ∈ o) && f == f') ∧
      ∀ u, Created u → s.eq u = .ok false ∧ u.eq s = .ok false := by
  have key : ∀ (o : List String) (f : Bool) (s : Space),
      Space.make (some o) none (if f then LimIn.false else .none) = .ok s →
      s.coords = ⟨some o, none⟩ ∧ s.limitsAreSet = f ∧ s.limitsAreFalse = f ∧ s.hasLimits = false := by
    intro o f s hs
    obtain ⟨h1, h2, h3⟩ := make_const (v := if f then .off else .unset) (by cases f <;> simp) hs
    obtain ⟨l, hl⟩ := List.exists_mem_of_ne_nil _ h3
    have e1 : s.limitsAreSet = f := by
      unfold Space.limitsAreSet
      cases f
      · rw [List.all_eq_false]; exact ⟨l, hl, by rw [h2 l hl]; simp [Lim.isSet]⟩
      · rw [List.all_eq_true]; exact fun l hl => by rw [h2 l hl]; simp [Lim.isSet]
    have e2 : s.limitsAreFalse = f := by
      unfold Space.limitsAreFalse
      cases f
      · rw [List.all_eq_false]; exact ⟨l, hl, by rw [h2 l hl]; simp [Lim.isFalse]⟩
      · rw [List.all_eq_true]; exact fun l hl => by rw [h2 l hl]; simp [Lim.isFalse]
    exact ⟨h1, e1, e2, by unfold Space.hasLimits; rw [e1, e2]; cases f <;> rfl⟩
  obtain ⟨s1, s2, s3, s4⟩ := key o f s hs
  obtain ⟨t1, t2, t3, t4⟩ := key o' f' t ht
  have hrs : s.rectLimits = .error .limitsNotSpecified := by unfold Space.rectLimits; simp [s4]
  constructor
  · unfold Space.eq Space.compareNoLimits
    rw [hrs]
    simp only [s1, t1, s2, s3, t2, t3]
    cases hb : (o.all (· ∈ o') && o'.all (· ∈ o)) <;> cases f <;> cases f' <;> simp
  · intro u hu
    have hg := hu.good
    have hl := hg.2.hasLimits.1
    have u1 : u.limitsAreSet = true ∧ u.limitsAreFalse = false := by
      unfold Space.hasLimits at hl; simpa using hl
    constructor
    · unfold Space.eq Space.compareNoLimits
      rw [hrs]
      simp only [s1, hg.1, s2, s3, u1.1, u1.2]
      cases hb : (o.all (· ∈ obsOf u) && (obsOf u).all (· ∈ o)) <;> cases f <;> simp
    · unfold Space.eq Space.compareNoLimits
      rw [hrs, hg.rectLimits]
      simp only [s1, hg.1, u1.1, u1.2]
      cases hb : ((obsOf u).all (· ∈ o) && o.all (· ∈ obsOf u)) <;> simp

/-- Non-vacuity: equal spaces in different order, one of them with axes; unequal ones. -/
example :
    (Space.make (some ["x", "y"]) (some [1, 0]) (.rect [0, 2] [1, 3]) >>= fun s =>
      Space.make (some ["y", "x"]) none (.rect [2, 0] [3, 1]) >>= fun t =>
      Space.make (some ["y", "x"]) none (.rect [2, 0] [3, 2]) >>= fun u =>
      s.eq t >>= fun a => s.eq u >>= fun b => .ok (a, b)) = .ok (true, false) := by decide +kernel

/-- C04 violated: equality of spaces is not transitive (the limits are compared with a tolerance). -/
theorem space_eq_transitive_violated :
    ∃ s t u : Space, Space.make (some ["x"]) none (.rect [0] [1]) = .ok s ∧
      Space.make (some ["x"]) none (.rect [6 / 1000000000] [1]) = .ok t ∧
      Space.make (some ["x"]) none (.rect [12 / 1000000000] [1]) = .ok u ∧
      s.eq t = .ok true ∧ t.eq u = .ok true ∧ s.eq u = .ok false := by
  refine ⟨⟨⟨some ["x"], none⟩, some [("x", .rect 0 1)], none⟩,
    ⟨⟨some ["x"], none⟩, some [("x", .rect (6 / 1000000000) 1)], none⟩,
    ⟨⟨some ["x"], none⟩, some [("x", .rect (12 / 1000000000) 1)], none⟩, ?_⟩
  decide +kernel

/-- C04 violated: spaces that compare equal hash different keys (the observables in their order), so they are different
members of a set. -/
theorem space_hash_violated :
    ∃ s t : Space, Space.make (some ["x", "y"]) none (.rect [0, 2] [1, 3]) = .ok s ∧
      Space.make (some ["y", "x"]) none (.rect [2, 0] [3, 1]) = .ok t ∧
      s.eq t = .ok true ∧ s.hashKey ≠ t.hashKey := by
  refine ⟨_, _, rfl, rfl, ?_⟩
  decide +kernel

/-- C04 violated: comparing a space that has only observables with one that has only axes is an error, not `False`. -/
theorem space_eq_error_violated :
    ∃ s t : Space, Space.make (some ["x"]) none (.rect [0] [1]) = .ok s ∧
      Space.make none (some [0]) (.rect [0] [1]) = .ok t ∧ s.eq t = .error .coordinatesUnderdefined := by
  refine ⟨_, _, rfl, rfl, ?_⟩
  decide +kernel

/-! ## C07: `combine_spaces` -/

/-- C07.  Whatever spaces are combined: if a space comes back, its observables are all the observables of the given
spaces in order of appearance, and each has the limits one of the given spaces gives it.  If the given spaces agree
exactly on what they share, then a point is inside the result exactly if it is inside every given space, i.e. the
limits of the result are those of every given space. -/
theorem combine_limits (spaces : List Space) (hne : spaces ≠ []) (hs : ∀ s ∈ spaces, Created s) (r : Space)
    (h : combineSpaces spaces = .ok r) :
    commonObs spaces = some (obsOf r) ∧ (∀ x, x ∈ obsOf r ↔ ∃ s ∈ spaces, x ∈ obsOf s) ∧
    (∀ x ∈ obsOf r, ∃ s ∈ spaces, x ∈ obsOf s ∧ limOf r x = limOf s x) ∧
    ((∀ s ∈ spaces, ∀ t ∈ spaces, ∀ x, x ∈ obsOf s → x ∈ obsOf t → limOf s x = limOf t x) →
      ∀ s ∈ spaces, ∀ x ∈ obsOf s, limOf r x = limOf s x) := by
  obtain ⟨common, ts, h1, h2, h3, h4, h5, h6, h7, h8, h9⟩ := combineSpaces_loop hne fun s h => (hs s h).good
  rw [h9, bind_eq_ok] at h
  obtain ⟨st, hst, hr⟩ := h
  obtain ⟨a1, a2, -⟩ := combineLoop_ok h7 (combine_init h2 h6).base (fun c hc => ⟨hc, h8 c hc⟩) hst
  obtain ⟨r', e1, e2, e3, e4⟩ := combine_make h3 h2 a1 a2
  rw [hr] at e1
  cases e1
  have hlim : ∀ x ∈ obsOf r, ∃ s ∈ spaces, x ∈ obsOf s ∧ limOf r x = limOf s x := by
    intro x hx
    rw [e3] at hx
    obtain ⟨t, ht, hxt, hl⟩ := e4 x hx
    obtain ⟨s, hs', hst'⟩ := forall₂_mem_right h5 ht
    have hxs := (hst'.2.1 x).1 hxt
    exact ⟨s, hs', hxs, by rw [hl, hst'.2.2 x hxs]⟩
  refine ⟨by rw [e3]; exact h1, fun x => by rw [e3]; exact h4 x, hlim, ?_⟩
  intro hcons s hs' x hx
  obtain ⟨t, ht, hxt, hl⟩ := hlim x (by rw [e3]; exact (h4 x).2 ⟨s, hs', hx⟩)
  rw [hl]
  exact hcons t ht s hs' x hxt hx

/-- C07, the decision.  If no observable occurs in more than two of the given spaces, then `combine_spaces` returns a
space exactly if the spaces agree (within the tolerance) on every observable they share, and raises
`LimitsIncompatibleError` otherwise.  Missing for the full property: observables in three or more spaces (see
`combine_conflict_undetected_violated` and `combine_keyerror_violated`). -/
theorem combine_decision_partial (spaces : List Space) (hne : spaces ≠ []) (hs : ∀ s ∈ spaces, Created s)
    (htwo : ∀ x, occurrences spaces x ≤ 2) :
    ((∀ x, AgreeOn spaces x) → ∃ r, combineSpaces spaces = .ok r) ∧
    (¬ (∀ x, AgreeOn spaces x) → combineSpaces spaces = .error .limitsIncompatible) := by
  obtain ⟨common, ts, h1, h2, h3, h4, h5, h6, h7, h8, h9⟩ := combineSpaces_loop hne fun s h => (hs s h).good
  have htwo' : ∀ x, occurrences ts x ≤ 2 := fun x => by rw [occurrences_same h5]; exact htwo x
  have hag : ∀ x, AgreeOn ts x ↔ AgreeOn spaces x := agree_same h5
  rw [h9]
  rcases combineLoop2 h7 htwo' (combine_init h2 h6) h8 h6 with ⟨e1, x, hx, hnx⟩ | ⟨st, e1, e2, -, e4⟩
  · rw [e1]
    exact ⟨fun hall => (hnx ((hag x).2 (hall x))).elim, fun _ => rfl⟩
  · obtain ⟨a1, a2, -⟩ := combineLoop_ok h7 (combine_init h2 h6).base (fun c hc => ⟨hc, h8 c hc⟩) e1
    obtain ⟨r, f1, -⟩ := combine_make h3 h2 a1 a2
    rw [e1, except_bind_ok, f1]
    refine ⟨fun _ => ⟨r, rfl⟩, fun hn => (hn ?_).elim⟩
    intro x
    by_cases hx : x ∈ common
    · exact (hag x).1 (e2.done x hx (e4 x hx))
    · intro s hs' t ht hxs
      exact (hx ((h4 x).2 ⟨s, hs', hxs⟩)).elim

/-- Non-vacuity: three spaces, `y` shared by two of them. -/
example :
    (Space.make (some ["x", "y"]) none (.rect [0, 2] [1, 3]) >>= fun s =>
      Space.make (some ["z"]) none (.rect [5] [6]) >>= fun t =>
      Space.make (some ["w", "y"]) none (.rect [7, 2] [8, 3]) >>= fun u =>
      Space.make (some ["w", "y"]) none (.rect [7, 2] [8, 4]) >>= fun v =>
      combineSpaces [s, t, u] >>= fun r => r.rectLimits >>= fun l =>
      .ok (obsOf r, l, combineSpaces [s, t, v])) =
    .ok (["x", "y", "z", "w"], ([0, 2, 5, 7], [1, 3, 6, 8]), .error .limitsIncompatible) := by decide +kernel

/-- C07: the limits have to be set, not set or `False` for all spaces; mixtures are refused. -/
example :
    ∃ s t v : Space, Space.make (some ["x"]) none .none = .ok s ∧ Space.make (some ["y"]) none (.rect [0] [1]) = .ok t ∧
      Space.make (some ["x"]) none .false = .ok v ∧
      combineSpaces [s, t] = .error .limitsNotSpecified ∧ combineSpaces [s, v] = .error .limitsNotSpecified ∧
      combineSpaces [s, s] = .ok s ∧ combineSpaces [v, v] = .ok v :=
  ⟨_, _, _, rfl, rfl, rfl, by decide +kernel⟩

/-- C07 violated: with three spaces a conflict can go unnoticed.  A and B have x and y, C has y with other limits; the
shared pair x, y is compared between A and B only, and y then counts as done. -/
theorem combine_conflict_undetected_violated :
    ∃ a b c r : Space, Space.make (some ["x", "y"]) none (.rect [0, 0] [1, 1]) = .ok a ∧
      Space.make (some ["x", "y"]) none (.rect [0, 0] [1, 1]) = .ok b ∧
      Space.make (some ["y"]) none (.rect [5] [6]) = .ok c ∧
      combineSpaces [a, b, c] = .ok r ∧ limOf r "y" = (0, 1) ∧ limOf c "y" = (5, 6) := by
  refine ⟨_, _, _, ⟨⟨some ["x", "y"], none⟩, some [("x", .rect 0 1), ("y", .rect 0 1)], none⟩, rfl, rfl, rfl, ?_⟩
  decide +kernel

/-- C07 violated: four spaces that agree on everything they share fail with a `KeyError`. -/
theorem combine_keyerror_violated :
    ∃ a c : Space, Space.make (some ["x", "y"]) none (.rect [0, 0] [1, 1]) = .ok a ∧
      Space.make (some ["y", "w"]) none (.rect [0, 0] [1, 1]) = .ok c ∧
      combineSpaces [a, a, c, c] = .error .keyError := by
  refine ⟨_, _, rfl, rfl, ?_⟩
  decide +kernel

end Zfit.Sp
