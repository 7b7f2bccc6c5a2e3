import Verif.Dim.Lemmas

/-!
# Properties of grouping by observables and of the overlap check (C08, C09)
-/

namespace Zfit.Dim

open Zfit

/-! ## C08 -/

/-- Whatever the objects: a group's key is exactly the set of observables of its members, the members are among the
given objects and are chained through shared observables (groups never mix unrelated objects). -/
theorem groups_connected (dims : List Dimensional) :
    ∀ g ∈ obsSubsets dims,
      (∀ x, x ∈ g.1 ↔ ∃ a ∈ g.2, x ∈ a.obs) ∧
      (∀ a ∈ g.2, a ∈ dims) ∧
      (∀ a ∈ g.2, ∀ b ∈ g.2, Chained dims a b) :=
  fun g hg => ⟨(subsets_ok dims g hg).key, (subsets_ok dims g hg).mem, (subsets_ok dims g hg).chained⟩

/-- C08, for inputs in which no object joins earlier, still separate ones: every object is in exactly one group (with
multiplicity), a group holds exactly the objects chained to any of its members, the groups' observables are pairwise
disjoint.
Missing from the full claim: inputs with a bridging object, where the claim is false (see below). -/
theorem groups_are_components_partial (dims : List Dimensional) (hne : ∀ d ∈ dims, d.obs ≠ []) (hb : NoBridge dims) :
    ((obsSubsets dims).flatMap (·.2)).Perm dims ∧
    (∀ g ∈ obsSubsets dims, ∀ a ∈ g.2, ∀ b, b ∈ g.2 ↔ b ∈ dims ∧ Chained dims a b) ∧
    (obsSubsets dims).Pairwise (fun g g' => ∀ x, ¬ (x ∈ g.1 ∧ x ∈ g'.1)) := by
  have h := partition_all hne hb
  refine ⟨h.perm, ?_, ?_⟩
  · intro g hg a ha b
    constructor
    · intro hb'
      exact ⟨(h.ok g hg).mem b hb', (h.ok g hg).chained a ha b hb'⟩
    · rintro ⟨_, hc⟩
      exact h.chain hg ha hc
  · refine h.disj.imp ?_
    intro g g' hm x hx
    rw [meets_iff.2 ⟨x, hx⟩] at hm
    cases hm

/-- A case meeting the hypotheses: two joined objects and a separate one. -/
example :
    let dims := [⟨0, ["x"]⟩, ⟨1, ["z"]⟩, ⟨2, ["x", "y"]⟩]
    (∀ d ∈ dims, d.obs ≠ []) ∧ NoBridge dims ∧
      obsSubsets dims = [(["z"], [⟨1, ["z"]⟩]), (["x", "x", "y"], [⟨0, ["x"]⟩, ⟨2, ["x", "y"]⟩])] := by
  refine ⟨by decide, ?_, by decide⟩
  intro pre d post he a ha b hb h1 h2
  have key : a = b := by
    rcases pre with _ | ⟨p0, _ | ⟨p1, _ | ⟨p2, pre⟩⟩⟩
    · cases ha
    · simp only [List.mem_singleton] at ha hb
      rw [ha, hb]
    · simp only [List.cons_append, List.nil_append, List.cons.injEq] at he
      obtain ⟨rfl, rfl, rfl, rfl⟩ := he
      have hz : ∀ {c : Dimensional}, c ∈ [⟨0, ["x"]⟩, ⟨1, ["z"]⟩] → Share c ⟨2, ["x", "y"]⟩ → c = ⟨0, ["x"]⟩ := by
        intro c hc hs
        simp only [List.mem_cons, List.not_mem_nil, or_false] at hc
        rcases hc with rfl | rfl
        · rfl
        · obtain ⟨x, hx1, hx2⟩ := hs
          simp only [List.mem_cons, List.not_mem_nil, or_false] at hx1 hx2
          subst hx1
          revert hx2
          decide
      rw [hz ha h1, hz hb h2]
    · have := congrArg List.length he
      simp at this
  rw [key]
  exact .refl

/-- C08 fails for a bridging object: `x`, `y`, then `(x, y)` gives two groups that share the observable `y`, although
all three objects are connected. -/
theorem bridge_leaves_overlap_violated :
    obsSubsets [⟨0, ["x"]⟩, ⟨1, ["y"]⟩, ⟨2, ["x", "y"]⟩] =
      [(["y"], [⟨1, ["y"]⟩]), (["x", "x", "y"], [⟨0, ["x"]⟩, ⟨2, ["x", "y"]⟩])] := by decide

/-- C08 fails: a further object with the same observables makes the dictionary overwrite a group, and the objects 0 and
2 are in no group at all. -/
theorem bridge_loses_objects_violated :
    obsSubsets [⟨0, ["x"]⟩, ⟨1, ["y"]⟩, ⟨2, ["x", "y"]⟩, ⟨3, ["x", "y"]⟩] =
      [(["x", "x", "y"], [⟨1, ["y"]⟩, ⟨3, ["x", "y"]⟩])] := by decide

/-- `get_same_obs`: for two different positions, one lists the other exactly when they share an observable. -/
theorem same_obs_iff (obs : List (List String)) (i j : Nat) (hi : i < obs.length) (hj : j < obs.length)
    (hij : i ≠ j) :
    j ∈ (getSameObs obs).getD i [] ↔ ∃ x, x ∈ obs.getD i [] ∧ x ∈ obs.getD j [] := by
  rw [mem_getSameObs]
  constructor
  · rintro ⟨p, q, hpq, hq, hm, (⟨rfl, (rfl | rfl)⟩ | ⟨rfl, rfl⟩)⟩
    · exact (hij rfl).elim
    · exact meets_iff.1 hm
    · rw [meets_symm] at hm
      exact meets_iff.1 hm
  · intro h
    have hm := meets_iff.2 h
    rcases Nat.lt_or_ge i j with hlt | hge
    · exact ⟨i, j, hlt, hj, hm, Or.inl ⟨rfl, Or.inr rfl⟩⟩
    · refine ⟨j, i, by omega, hi, ?_, Or.inr ⟨rfl, rfl⟩⟩
      rw [meets_symm]
      exact hm

/-- A position lists itself exactly when it shares an observable with a *later* one. -/
theorem same_obs_self_iff (obs : List (List String)) (i : Nat) :
    i ∈ (getSameObs obs).getD i [] ↔ ∃ j, i < j ∧ j < obs.length ∧ ∃ x, x ∈ obs.getD i [] ∧ x ∈ obs.getD j [] := by
  rw [mem_getSameObs]
  constructor
  · rintro ⟨p, q, hpq, hq, hm, (⟨rfl, _⟩ | ⟨h1, h2⟩)⟩
    · exact ⟨q, hpq, hq, meets_iff.1 hm⟩
    · omega
  · rintro ⟨j, h1, h2, h3⟩
    exact ⟨i, j, h1, h2, meets_iff.2 h3, Or.inl ⟨rfl, Or.inl rfl⟩⟩

/-- The asymmetry: of two equal observables the first lists both positions, the second only the first. -/
theorem same_obs_self_asymmetric_violated : getSameObs [["x"], ["x"]] = [[0, 1], [0]] := by decide

/-! ## C09 -/

/-- C09, soundness: if the check reports an overlap (every interval longer than the tolerance 1e-8), there is an
observable with two intervals in the spaces that overlap by more than a point. Missing from the full claim: the cases of
`overlap_order_violated`, `overlap_is_per_observable_violated`. -/
theorem overlap_sound_partial (spaces : List LSpace) (exact : Bool)
    (hlen : ∀ ob, ∀ iv ∈ intervalsOf spaces ob, iv.1 + 1 / 100000000 < iv.2) (h : limitsOverlap spaces exact = true) :
    ∃ ob pre a mid b post, intervalsOf spaces ob = pre ++ a :: mid ++ b :: post ∧ Overlap a b := by
  have heps : (1 / 100000000 : Rat) = eps := rfl
  rw [heps] at hlen
  unfold limitsOverlap at h
  rw [List.any_eq_true] at h
  obtain ⟨ob, _, h⟩ := h
  rw [overlapLoop_iff] at h
  rcases h with ⟨a, ha, _⟩ | ⟨pre, a, mid, b, post, he, h⟩
  · cases ha
  · refine ⟨ob, pre, a, mid, b, post, he, ?_⟩
    have ha := hlen ob a (by rw [he]; simp)
    have hb := hlen ob b (by rw [he]; simp)
    have h' : (a.1 - eps < b.1 ∧ b.1 < a.2 - eps) ∨ (a.1 + eps < b.2 ∧ b.2 < a.2 + eps) := by
      unfold pairOverlap at h
      split at h
      · cases h
      · simpa using h
    have he : (0 : Rat) < eps := by unfold eps; norm_num
    unfold Overlap
    rw [max_lt_iff, lt_min_iff, lt_min_iff]
    rcases h' with ⟨h1, h2⟩ | ⟨h1, h2⟩ <;> refine ⟨⟨?_, ?_⟩, ?_, ?_⟩ <;> linarith

/-- C09, completeness up to the tolerance, for all pairs but those where the later interval contains the earlier one:
if two intervals of an observable overlap by more than 1e-8, the later not containing the earlier, it is reported.
Missing from the full claim: the excluded pairs, for which it is false (see below). -/
theorem overlap_complete_partial (spaces : List LSpace) (ob : String) (pre mid post : List (Rat × Rat))
    (a b : Rat × Rat) (he : intervalsOf spaces ob = pre ++ a :: mid ++ b :: post)
    (hov : max a.1 b.1 + 1 / 100000000 < min a.2 b.2)
    (hcont : ¬ (b.1 ≤ a.1 - 1 / 100000000 ∧ a.2 + 1 / 100000000 ≤ b.2)) :
    limitsOverlap spaces false = true := by
  have heps : (1 / 100000000 : Rat) = eps := rfl
  rw [heps] at hov hcont
  unfold limitsOverlap
  rw [List.any_eq_true]
  refine ⟨ob, intervalsOf_common (by rw [he]; simp), ?_⟩
  rw [overlapLoop_iff]
  refine Or.inr ⟨pre, a, mid, b, post, he, ?_⟩
  rw [lt_min_iff] at hov
  have h1 := le_max_left a.1 b.1
  have h2 := le_max_right a.1 b.1
  unfold pairOverlap
  simp only [Bool.false_and, Bool.false_eq_true, if_false, Bool.or_eq_true, Bool.and_eq_true, decide_eq_true_eq]
  by_cases hc : b.1 ≤ a.1 - eps
  · right
    rw [not_and] at hcont
    have := hcont hc
    constructor
    · linarith
    · linarith
  · left
    constructor <;> linarith

/-- A case meeting the hypotheses of both: the second interval starts inside the first. -/
example : limitsOverlap [⟨["x"], [[(0, 2)]]⟩, ⟨["y", "x"], [[(0, 9), (1, 3)]]⟩] false = true ∧
    intervalsOf [⟨["x"], [[(0, 2)]]⟩, ⟨["y", "x"], [[(0, 9), (1, 3)]]⟩] "x" = [] ++ (0, 2) :: [] ++ (1, 3) :: [] := by
  decide +kernel

/-- C09 fails: the answer depends on the order, an interval containing an earlier one is not noticed. -/
theorem overlap_order_violated :
    limitsOverlap [⟨["x"], [[(0, 3)]]⟩, ⟨["x"], [[(1, 2)]]⟩] false = true ∧
    limitsOverlap [⟨["x"], [[(1, 2)]]⟩, ⟨["x"], [[(0, 3)]]⟩] false = false := by decide +kernel

/-- Intervals of different observables are never compared: boxes that differ only in a second observable "overlap". -/
theorem overlap_is_per_observable_violated :
    limitsOverlap [⟨["x", "y"], [[(0, 1), (0, 1)]]⟩, ⟨["x", "y"], [[(0, 1), (5, 6)]]⟩] false = true := by
  decide +kernel

/-- With `allow_exact_match`, equal intervals are not an overlap. -/
theorem exact_match_allowed (iv : Rat × Rat) (ob : String) :
    limitsOverlap [⟨[ob], [[iv]]⟩, ⟨[ob], [[iv]]⟩] true = false := by
  have hi : ∀ o, intervalsOf [⟨[ob], [[iv]]⟩, ⟨[ob], [[iv]]⟩] o = if o = ob then [iv, iv] else [] := by
    intro o
    by_cases h : o = ob
    · subst h
      simp [intervalsOf]
    · simp [intervalsOf, h]
  have hc : ∀ x : Rat, allclose x x = true := by
    intro x
    simp only [allclose, sub_self, abs_zero, decide_eq_true_eq]
    positivity
  unfold limitsOverlap
  rw [List.any_eq_false]
  intro o _
  rw [hi]
  split
  · simp [overlapLoop, pairOverlap, hc]
  · simp [overlapLoop]

end Zfit.Dim
