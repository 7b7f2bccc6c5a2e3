import Verif.Space.MultiLemmas

/-!
# Property C06: unions of spaces (see /verif/properties.jsonl)

`Box` (Spec.lean) is a box in named coordinates, `Box.contains b p` says that the point with coordinates `p` lies in
it, `Box.volume` is the product of its edge lengths.
-/

namespace Zfit.Sp

open Zfit Zfit.Coord

/-- `A` was built from the given boxes, in this order: a single space created with (distinct) observables, limits and
possibly axes, or any nesting of `add_spaces` (`+`) of such spaces. -/
inductive Builds : ASpace → List Box → Prop
  | leaf (obs : List String) (axes : Option (List Int)) (lower upper : List Rat) (s : Space)
      (hs : Space.make (some obs) axes (.rect lower upper) = .ok s) (ho : obs.Nodup)
      (ha : ∀ l, axes = some l → l.Nodup) : Builds (.single s) [obs.zip (lower.zip upper)]
  | add (n : Nat) (As : Fin n → ASpace) (bs : Fin n → List Box) (A : ASpace)
      (h : ∀ i, Builds (As i) (bs i)) (hA : addSpaces (List.ofFn As) = .ok A) : Builds A (List.ofFn bs).flatten

theorem Builds.rep {A : ASpace} {boxes : List Box} (h : Builds A boxes) : ∃ obs, Rep A obs boxes := by
  induction h with
  | leaf obs axes lower upper s hs ho ha =>
    obtain ⟨hi, hco, -, -⟩ := make_rect_inv (o := some obs) (by rintro l ⟨⟩; exact ho) ha hs
    refine ⟨obs, by simp [ASpace.coords, hco], ?_, .cons ⟨by rw [hco], _, hi, List.Perm.refl _⟩ .nil⟩
    rintro rfl
    have hl := (hi.obs [] (by rw [hco])).1
    exact hi.ne (List.length_eq_zero_iff.1 hl.symm)
  | add n As bs A h hA ih =>
    have : List.Forall₂ (fun A b => ∃ obs, Rep A obs b) (List.ofFn As) (List.ofFn bs) := by
      rw [List.forall₂_iff_get]
      refine ⟨by simp, fun i h1 h2 => ?_⟩
      simp only [List.get_eq_getElem, List.getElem_ofFn]
      exact ih _
    obtain ⟨obs, hr, -⟩ := Rep.add this hA
    exact ⟨obs, hr⟩

/-- C06.  Whatever the nesting of additions, the result has one leaf per box, in the order of the additions; a point
(given by name, in the order of the observables of the result) is inside exactly if one of the boxes contains it; and
the volume is the sum of the volumes of the boxes. -/
theorem union_of_boxes (A : ASpace) (boxes : List Box) (h : Builds A boxes) (hne : boxes ≠ []) :
    ∃ obs, A.coords.obs = some obs ∧ A.leaves.length = boxes.length ∧
      (∀ (i : Nat) (leaf : Space) (b : Box) (p : String → Rat), A.leaves[i]? = some leaf → boxes[i]? = some b →
        (ASpace.single leaf).inside [obs.map p] = .ok [b.contains p] ∧ leaf.volume = .ok b.volume) ∧
      (∀ points : List (String → Rat), A.inside (points.map (fun p => obs.map p)) =
        .ok (points.map (fun p => boxes.any (Box.contains · p)))) ∧
      A.volume = .ok (boxes.map Box.volume).sum := by
  obtain ⟨obs, hr⟩ := h.rep
  refine ⟨obs, hr.1, hr.2.2.length_eq, ?_, hr.inside, hr.volume hne⟩
  intro i leaf b p hl hb
  have hlb : LeafOK obs leaf b := by
    obtain ⟨h1, h1'⟩ := List.getElem?_eq_some_iff.1 hl
    obtain ⟨h2, h2'⟩ := List.getElem?_eq_some_iff.1 hb
    have := (List.forall₂_iff_get.1 hr.2.2).2 i h1 h2
    simp only [List.get_eq_getElem, h1', h2'] at this
    exact this
  refine ⟨?_, hlb.volume⟩
  have := hlb.mask [p]
  simpa [ASpace.inside] using this

/-- C06.  Adding one space gives that space. -/
theorem add_one (s : Space) (obs : List String) (axes : Option (List Int)) (lower upper : List Rat)
    (hs : Space.make (some obs) axes (.rect lower upper) = .ok s) (ho : obs.Nodup)
    (ha : ∀ l, axes = some l → l.Nodup) (A : ASpace) (hA : addSpaces [.single s] = .ok A) :
    ∃ s', A = .single s' ∧ s'.coords.obs = some obs ∧ s'.rectLimits = .ok (lower, upper) := by
  obtain ⟨hi, hco, hlen, -⟩ := make_rect_inv (o := some obs) (by rintro l ⟨⟩; exact ho) ha hs
  have hb : Builds A (List.ofFn (fun _ : Fin 1 => [obs.zip (lower.zip upper)])).flatten :=
    .add 1 (fun _ => .single s) _ A (fun _ => .leaf obs axes lower upper s hs ho ha) (by simpa using hA)
  obtain ⟨obs', hr⟩ := hb.rep
  have hobs : A.coords.obs = some obs := by
    have h2 : List.Forall₂ (fun A b => ∃ obs, Rep A obs b) [ASpace.single s] [[obs.zip (lower.zip upper)]] :=
      .cons (Builds.leaf obs axes lower upper s hs ho ha).rep .nil
    obtain ⟨o2, hr2, hh⟩ := Rep.add h2 hA
    simp only [flattenSpaces, List.flatMap_cons, ASpace.leaves, List.flatMap_nil, List.append_nil, List.head?_cons,
      Option.bind_some, hco, Option.some.injEq] at hh
    rw [hr2.1, hh]
  have hleaf := hr.2.2
  have e : obs' = obs := by
    have := hr.1
    rw [hobs] at this
    exact (Option.some.inj this).symm
  subst e
  simp only [List.ofFn_succ, List.ofFn_zero, List.flatten_cons, List.flatten_nil, List.append_nil] at hleaf
  cases A with
  | multi spaces c =>
    exfalso
    unfold addSpaces multiMake at hA
    simp only [flattenSpaces, List.flatMap_cons, ASpace.leaves, List.flatMap_nil, List.append_nil, bind_eq_ok] at hA
    obtain ⟨ls, -, ls2, -, hA⟩ := hA
    simp only [ASpace.leaves] at hleaf
    split at hA
    · cases hA
    · rename_i hno
      simp only [bind_eq_ok, except_pure, Except.ok.injEq] at hA
      obtain ⟨c', -, hA⟩ := hA
      cases hA
      cases hleaf with
      | cons h1 h2 => cases h2; exact hno _ rfl
  | single s' =>
    refine ⟨s', rfl, hobs, ?_⟩
    simp only [ASpace.leaves] at hleaf
    cases hleaf with
    | cons h1 h2 =>
      obtain ⟨ho1, lims, hi1, hp⟩ := h1
      have hnd : (obs'.zip lims).map (·.1) = obs' := List.map_fst_zip (by rw [(hi1.obs _ ho1).1])
      have hl2 : obs'.length = (lower.zip upper).length := (hi.obs obs' (by rw [hco])).1
      have hnd2 : (obs'.zip (lower.zip upper)).map (·.1) = obs' := List.map_fst_zip (by omega)
      have : obs'.zip lims = obs'.zip (lower.zip upper) := by
        apply eq_of_perm_map_fst hp (by rw [hnd, hnd2]) (by rw [hnd]; exact ho)
      have hlims : lims = lower.zip upper := by
        have := congrArg (List.map (·.2)) this
        rwa [List.map_snd_zip (by rw [(hi1.obs _ ho1).1]), List.map_snd_zip (by omega)] at this
      rw [hi1.rectLimits, hlims, List.map_fst_zip (by omega), List.map_snd_zip (by omega)]

/-- C06: limits are never mixed, and spaces without limits do not pile up: a union either has limits in every piece, or
it is one single space. -/
theorem add_without_limits (spaces : List ASpace) (A : ASpace) (hA : addSpaces spaces = .ok A) :
    (∀ s ∈ A.leaves, s.hasLimits = true) ∨ ∃ s, A = .single s ∧ s.hasLimits = false := by
  unfold addSpaces multiMake at hA
  split at hA
  · cases hA
  · simp only [bind_eq_ok] at hA
    obtain ⟨ls, -, ls2, hc, hA⟩ := hA
    unfold checkLeafLimits at hc
    split at hc
    · rename_i hall
      cases hc
      rw [List.all_eq_true] at hall
      left
      split at hA
      · cases hA
        simpa [ASpace.leaves] using hall
      · simp only [bind_eq_ok, except_pure, Except.ok.injEq] at hA
        obtain ⟨c', -, rfl⟩ := hA
        exact hall
    · split at hc
      · rename_i h1 h2
        cases hc
        cases ls with
        | nil => simp at h1
        | cons s ls =>
          simp only [List.take_succ_cons, List.take_zero, except_pure, Except.ok.injEq] at hA
          right
          refine ⟨s, hA.symm, ?_⟩
          simp at h2
          exact h2.1
      · cases hc

/-- Two spaces without limits: the first one is the result. -/
example : (do
    let a ← (Space.make (some ["x"]) none .none).map ASpace.single
    let b ← (Space.make (some ["x"]) none .none).map ASpace.single
    let A ← addSpaces [a, b]
    return (decide (A = a), A.leaves.length)) = .ok (true, 1) := by decide +kernel

/-- C06, error branches: no space at all; some with and some without limits; and different observables. -/
theorem add_errors :
    addSpaces [] = .error .valueError ∧
    (∀ (s t : Space) (o : List String), s.coords = ⟨some o, none⟩ → t.coords = ⟨some o, none⟩ →
      ∀ s' t', s.withObs (some o) false false = .ok s' → t.withObs (some o) false false = .ok t' →
        s'.coords.axes = none → t'.coords.axes = none → s'.hasLimits ≠ t'.hasLimits →
        addSpaces [.single s, .single t] = .error .limitsIncompatible) ∧
    (∀ (s t : Space) (o o' : List String), s.coords = ⟨some o, none⟩ → t.coords = ⟨some o', none⟩ →
      ∀ s', s.withObs (some o) false false = .ok s' → (∃ x ∈ o, x ∉ o') →
        addSpaces [.single s, .single t] = .error .obsIncompatible) := by
  refine ⟨rfl, ?_, ?_⟩
  · intro s t o hs ht s' t' hs' ht' ha hb hne
    have h1 : s'.withAxes none true true = .ok s' := by simp [Space.withAxes, ha]
    have h2 : t'.withAxes none true true = .ok t' := by simp [Space.withAxes, hb]
    have hc : checkLeafLimits [s', t'] = .error .limitsIncompatible := by
      unfold checkLeafLimits
      rw [if_neg, if_neg]
      all_goals
        simp only [List.all_cons, List.all_nil, List.any_cons, List.any_nil]
        revert hne
        cases s'.hasLimits <;> cases t'.hasLimits <;> simp
    simp only [addSpaces, multiMake, flattenSpaces, ASpace.leaves, List.flatMap_cons, List.flatMap_nil,
      List.cons_append, List.nil_append, alignLeaves, List.all_cons, hs, ht, Option.isSome_some, Option.isSome_none,
      Bool.and_self, List.all_nil, if_true, Option.orElse_none, List.mapM_cons, List.mapM_nil, hs', ht',
      except_bind_ok, except_pure, Bool.false_and, Bool.and_true, Bool.false_eq_true, if_false, h1, h2,
      hc, except_bind_error]
  · intro s t o o' hs ht s' hs' ⟨x, hx, hx'⟩
    have ht' : t.withObs (some o) false false = .error .obsIncompatible := by
      unfold Space.withObs Coords.withObs
      simp only [ht]
      split
      · rfl
      · rw [if_pos]
        · rfl
        · exact ⟨by simp, List.any_eq_true.2 ⟨x, hx, by simpa using hx'⟩⟩
    simp only [addSpaces, multiMake, flattenSpaces, ASpace.leaves, List.flatMap_cons, List.flatMap_nil,
      List.cons_append, List.nil_append, alignLeaves, List.all_cons, hs, ht, Option.isSome_some, Option.isSome_none,
      Bool.and_self, List.all_nil, if_true, Option.orElse_none, List.mapM_cons, List.mapM_nil, hs', ht',
      except_bind_ok, except_bind_error, except_pure]

/-- Non-vacuity: two boxes in different orders of the observables, added in a nested way. -/
def exBox (obs : List String) (lower upper : List Rat) : Except Err ASpace :=
  (Space.make (some obs) none (.rect lower upper)).map .single

example : (do
    let a ← exBox ["x", "y"] [0, 10] [1, 11]
    let b ← exBox ["y", "x"] [20, 2] [21, 4]
    let c ← exBox ["x", "y"] [5, 5] [6, 6]
    let ab ← addSpaces [a, b]
    let abc ← addSpaces [ab, c]
    let m ← abc.inside [[1 / 2, 21 / 2], [3, 41 / 2], [41 / 2, 3], [5, 6]]
    return (abc.leaves.length, m, abc.volume)) =
  .ok (3, [true, true, false, true], .ok 4) := by decide +kernel

/-- C06 is violated for spaces of which all have axes but only some have observables: the leaves are not brought to
one order.  The second space has the limits [2,3] for axis 0 and [10,11] for axis 1; after adding, the point with 2.5
at axis 0 and 10.5 at axis 1 is not inside, and the mirrored point is. -/
theorem mixed_coordinates_violated :
    ∃ a b A, (Space.make (some ["x", "y"]) (some [0, 1]) (.rect [0, 20] [1, 21]) = .ok a ∧
      Space.make none (some [1, 0]) (.rect [10, 2] [11, 3]) = .ok b ∧
      addSpaces [.single a, .single b] = .ok A ∧ A.coords = ⟨none, some [0, 1]⟩ ∧
      (b.withAxes (some [0, 1]) true true >>= fun b' => b'.rectLimits) = .ok ([2, 10], [3, 11]) ∧
      A.inside [[5 / 2, 21 / 2]] = .ok [false] ∧ A.inside [[21 / 2, 5 / 2]] = .ok [true]) := by
  refine ⟨_, _, _, rfl, rfl, rfl, ?_⟩
  decide +kernel

/-- C06: when the axes of the added spaces disagree they are dropped from the pieces but the union still claims the axes
of the first one. -/
theorem union_keeps_stale_axes_violated :
    ∃ a b A, (Space.make (some ["x"]) (some [0]) (.rect [0] [1]) = .ok a ∧
      Space.make (some ["x"]) (some [3]) (.rect [2] [3]) = .ok b ∧
      addSpaces [.single a, .single b] = .ok A ∧ A.coords.axes = some [0] ∧
      A.leaves.map (fun s => s.coords.axes) = [none, none]) := by
  refine ⟨_, _, _, rfl, rfl, rfl, ?_⟩
  decide +kernel

end Zfit.Sp
