import Verif.Space.MultiProps

/-!
# Property C06: unions of spaces that have axes only

The same claim as `union_of_boxes` (MultiProps.lean) for spaces without observables: the coordinates of a box are named by axes instead.
-/

namespace Zfit.Sp

open Zfit Zfit.Coord

/-- A box whose coordinates are named by axes: axis, lower and upper limit. -/
abbrev AxBox := List (Int × Rat × Rat)

/-- The point with the coordinates `p` lies in the closed box. -/
def AxBox.contains (b : AxBox) (p : Int → Rat) : Bool := b.all (fun e => decide (e.2.1 ≤ p e.1) && decide (p e.1 ≤ e.2.2))

/-- The volume of a box. -/
def AxBox.volume (b : AxBox) : Rat := (b.map (fun e => e.2.2 - e.2.1)).prod

/-- `A` was built from the given boxes, in this order: a single space created with (distinct) axes and limits, no observables, or any
nesting of `add_spaces` (`+`) of such spaces. -/
inductive AxBuilds : ASpace → List AxBox → Prop
  | leaf (axes : List Int) (lower upper : List Rat) (s : Space)
      (hs : Space.make none (some axes) (.rect lower upper) = .ok s) (ha : axes.Nodup) : AxBuilds (.single s) [axes.zip (lower.zip upper)]
  | add (n : Nat) (As : Fin n → ASpace) (bs : Fin n → List AxBox) (A : ASpace)
      (h : ∀ i, AxBuilds (As i) (bs i)) (hA : addSpaces (List.ofFn As) = .ok A) : AxBuilds A (List.ofFn bs).flatten

/-- A leaf in the order `axes` with the limits of the box `b` (in any order). -/
def AxLeafOK (axes : List Int) (s : Space) (b : AxBox) : Prop :=
  s.coords.obs = none ∧ s.coords.axes = some axes ∧ ∃ lims, Inv s lims ∧ List.Perm (axes.zip lims) b

theorem AxLeafOK.withAxes {axes axes' : List Int} {s s' : Space} {b : AxBox} (h : AxLeafOK axes s b) (hn : axes'.Nodup)
    (hs : s.withAxes (some axes') false false = .ok s') : AxLeafOK axes' s' b := by
  obtain ⟨hno', ho, lims, hi, hp⟩ := h
  obtain ⟨hlen, hno, -⟩ := hi.ax axes ho
  have hs0 := hs
  unfold Space.withAxes at hs
  simp only [ho, bind_eq_ok] at hs
  obtain ⟨c', hc', hs⟩ := hs
  obtain ⟨idx0, h1, -, -, -, h5, h6⟩ := coords_withAxes_picks ho hc'
  have hacc : (∀ x ∈ axes', x ∈ axes) ∧ ∀ x ∈ axes, x ∈ axes' := by
    unfold Coords.withAxes at hc'
    simp only [ho] at hc'
    split at hc'
    · cases hc'
    split at hc'
    · cases hc'
    split at hc'
    · cases hc'
    rename_i e1 e2 e3
    simp only [List.any_eq_true, decide_eq_true_eq, not_exists, not_and,
      Decidable.not_not] at e2 e3
    exact ⟨e2 (by simp), e3 (by simp)⟩
  have hco : s'.coords = c' := by
    unfold Space.copyWith Space.make at hs
    simp only [bind_eq_ok] at hs
    obtain ⟨c2, hc2, hs⟩ := hs
    have := make_coords hc2
    obtain ⟨oa, -, hs⟩ := hs
    cases hs
    rw [this]
  obtain ⟨idx, lims', hpl, hi', ho', ha'⟩ := withAxes_some_step hi hn hs0
  obtain ⟨a2, ha2, hpa⟩ := ha' trivial axes ho
  have hfil : axes'.filter (· ∈ axes) = axes' := by
    rw [List.filter_eq_self]; intro x hx; simpa using hacc.1 x hx
  rw [hfil] at h1
  have : a2 = axes' := by
    rw [hco, h1] at ha2
    exact (Option.some.inj ha2).symm
  subst this
  refine ⟨by rw [hco]; exact h5 hno', ha2, lims', hi', ?_⟩
  have hpz := hpa.zip hpl
  have hidx := hpa.idx_nodup hn
  refine (hpz.perm hidx ?_).trans hp
  have : a2.Perm axes := (List.subperm_of_subset hn hacc.1).antisymm (List.subperm_of_subset hno hacc.2)
  have := this.length_eq
  have := hpa.length
  simp only [List.length_zip]
  omega

theorem AxLeafOK.hasLimits {axes : List Int} {s : Space} {b : AxBox} (h : AxLeafOK axes s b) :
    s.hasLimits = true ∧ s.hasRectLimits = true := by
  obtain ⟨-, -, lims, hi, -⟩ := h
  exact hi.hasLimits

theorem AxLeafOK.set {axes : List Int} {s : Space} {b : AxBox} (h : AxLeafOK axes s b) :
    s.limitsAreSet = true ∧ s.limitsAreFalse = false := by
  have := h.hasLimits.1
  simpa [Space.hasLimits] using this

theorem ax_contains_perm {b b' : AxBox} (h : List.Perm b b') (p : Int → Rat) : AxBox.contains b p = AxBox.contains b' p := by
  unfold AxBox.contains
  rw [Bool.eq_iff_iff, List.all_eq_true, List.all_eq_true]
  constructor
  · intro hb e he; exact hb e (h.mem_iff.2 he)
  · intro hb e he; exact hb e (h.mem_iff.1 he)

theorem ax_inBox_contains {axes : List Int} {lims : List (Rat × Rat)} (hlen : axes.length = lims.length) (p : Int → Rat) :
    inBox (lims.map (·.1)) (lims.map (·.2)) (axes.map p) = AxBox.contains (axes.zip lims) p := by
  unfold inBox AxBox.contains
  induction axes generalizing lims with
  | nil => simp
  | cons o obs ih =>
    cases lims with
    | nil => simp at hlen
    | cons l lims =>
      simp only [List.map_cons, List.zip_cons_cons, List.all_cons]
      rw [ih (by simpa using hlen)]

theorem AxLeafOK.mask {axes : List Int} {s : Space} {b : AxBox} (h : AxLeafOK axes s b) (ps : List (Int → Rat)) :
    leafMask (ps.map (fun p => axes.map p)) s = .ok (ps.map (AxBox.contains b)) := by
  obtain ⟨-, ho, lims, hi, hp⟩ := h
  obtain ⟨hlen, -⟩ := hi.ax axes ho
  have hrow : ∀ row ∈ ps.map (fun p => axes.map p), row.length = lims.length := by
    intro row hr
    obtain ⟨p, -, rfl⟩ := List.mem_map.1 hr
    simpa using hlen
  have hall : (ps.map (fun p => axes.map p)).all (fun r => decide (r.length = s.coords.nObs)) = true := by
    rw [List.all_eq_true]; intro r hr; rw [hi.nObs]; simpa using hrow r hr
  unfold leafMask Space.inside
  simp only [sanitizeX, hall, if_true, except_bind_ok, Bool.and_false, Bool.false_eq_true, if_false,
    hi.insideRaw hrow, except_pure, List.map_map, Except.ok.injEq]
  apply List.map_congr_left
  intro p _
  simp only [Function.comp_apply]
  rw [ax_inBox_contains hlen, ax_contains_perm hp]

theorem AxLeafOK.volume {axes : List Int} {s : Space} {b : AxBox} (h : AxLeafOK axes s b) :
    s.volume = .ok (AxBox.volume b) := by
  obtain ⟨-, ho, lims, hi, hp⟩ := h
  obtain ⟨hlen, -⟩ := hi.ax axes ho
  unfold Space.volume
  rw [hi.rectLimits]
  simp only [except_bind_ok, except_pure, Except.ok.injEq]
  unfold AxBox.volume
  rw [← (hp.map _).prod_eq, ← List.prod_eq_foldl]
  congr 1
  clear hi hp ho
  induction axes generalizing lims with
  | nil => cases lims <;> simp_all
  | cons o obs ih =>
    cases lims with
    | nil => simp at hlen
    | cons l lims => simp [ih lims (by simpa using hlen)]

/-- All leaves stand for the boxes, in this order, and the space has the axes `axes`. -/
def AxRep (A : ASpace) (axes : List Int) (boxes : List AxBox) : Prop :=
  A.coords.obs = none ∧ A.coords.axes = some axes ∧ List.Forall₂ (AxLeafOK axes) A.leaves boxes

theorem AxRep.inside {A : ASpace} {axes : List Int} {boxes : List AxBox} (h : AxRep A axes boxes) (ps : List (Int → Rat)) :
    A.inside (ps.map (fun p => axes.map p)) = .ok (ps.map (fun p => boxes.any (AxBox.contains · p))) := by
  obtain ⟨hno, ho, hl⟩ := h
  cases A with
  | single s =>
    simp only [ASpace.leaves] at hl
    cases hl with
    | cons h1 h2 =>
      cases h2
      simp [ASpace.inside, h1.mask]
  | multi spaces c =>
    simp only [ASpace.leaves, ASpace.coords] at hl ho hno
    have hall : (ps.map (fun p => axes.map p)).all (fun r => decide (r.length = c.nObs)) = true := by
      rw [List.all_eq_true]
      intro r hr
      obtain ⟨p, -, rfl⟩ := List.mem_map.1 hr
      simp [Coords.nObs, ho, hno]
    have hm : spaces.mapM (leafMask (ps.map (fun p => axes.map p))) =
        .ok (boxes.map (fun b => ps.map (AxBox.contains b))) := by
      clear ho hall
      induction hl with
      | nil => rfl
      | cons h1 _ ih => simp [List.mapM_cons, h1.mask, ih]
    simp only [ASpace.inside, sanitizeX, hall, if_true, except_bind_ok, hm, except_pure, List.length_map,
      Except.ok.injEq]
    exact anyMasks_map ps boxes (fun b p => AxBox.contains b p)

theorem AxRep.volume {A : ASpace} {axes : List Int} {boxes : List AxBox} (h : AxRep A axes boxes)
    (hne : boxes ≠ []) : A.volume = .ok (boxes.map AxBox.volume).sum := by
  obtain ⟨-, ho, hl⟩ := h
  cases A with
  | single s =>
    simp only [ASpace.leaves] at hl
    cases hl with
    | cons h1 h2 =>
      cases h2
      simp [ASpace.volume, h1.volume]
  | multi spaces c =>
    simp only [ASpace.leaves] at hl
    have h1 : spaces.all Space.hasRectLimits = true := forall2_all hl (fun _ _ h => h.hasLimits.2)
    have h2 : spaces.all Space.limitsAreSet = true := forall2_all hl (fun _ _ h => h.set.1)
    have h3 : spaces.all Space.limitsAreFalse = false := by
      cases hl with
      | nil => exact absurd rfl hne
      | cons hd _ => simp [hd.set.2]
    have hm : spaces.mapM Space.volume = .ok (boxes.map AxBox.volume) := by
      clear h1 h2 h3 hne ho
      induction hl with
      | nil => rfl
      | cons h1 _ ih => simp [List.mapM_cons, h1.volume, ih]
    simp only [ASpace.volume, ASpace.hasLimits, ASpace.hasRectLimits, h1, h2, h3, Bool.not_true, Bool.not_false,
      Bool.and_true, Bool.and_false, Bool.false_eq_true, if_false, hm, except_bind_ok, except_pure, Except.ok.injEq]
    rw [← List.sum_eq_foldl]

theorem AxRep.add {As : List ASpace} {bs : List (List AxBox)} {A : ASpace}
    (h : List.Forall₂ (fun A b => ∃ axes, AxRep A axes b) As bs) (ha : addSpaces As = .ok A) :
    ∃ axes, AxRep A axes bs.flatten ∧ ((flattenSpaces As).head?.bind (fun s => s.coords.axes)) = some axes := by
  have hleaves : List.Forall₂ (fun s b => ∃ axes, AxLeafOK axes s b) (flattenSpaces As) bs.flatten := by
    clear ha
    unfold flattenSpaces
    induction h with
    | nil => exact .nil
    | cons h1 _ ih =>
      obtain ⟨axes, -, -, hl⟩ := h1
      simp only [List.flatMap_cons, List.flatten_cons]
      exact List.rel_append (hl.imp fun _ _ hl => ⟨axes, hl⟩) ih
  unfold addSpaces multiMake at ha
  split at ha
  · cases ha
  rename_i first rest hfl
  rw [hfl] at hleaves
  generalize hbs : bs.flatten = boxes at hleaves ⊢
  have hallAx : (first :: rest).all (fun s => s.coords.axes.isSome) = true := by
    refine forall2_all hleaves ?_
    rintro s b ⟨axes, h⟩
    rw [h.2.1]; rfl
  have hallNone : (first :: rest).all (fun s => s.coords.obs.isNone) = true := by
    refine forall2_all hleaves ?_
    rintro s b ⟨axes, h⟩
    rw [h.1]; rfl
  have hfirst : ∃ axes0 : List Int, first.coords.obs = none ∧ first.coords.axes = some axes0 ∧ axes0.Nodup := by
    cases hleaves with
    | cons h1 _ =>
      obtain ⟨axes, h1⟩ := h1
      obtain ⟨hno, hax, lims, hi, -⟩ := h1
      exact ⟨axes, hno, hax, (hi.ax _ hax).2.1⟩
  obtain ⟨axes0, hno0, hax0, hnd0⟩ := hfirst
  have hallObs : (first :: rest).all (fun s => s.coords.obs.isSome) = false := by
    simp [hno0]
  simp only [hallObs, hallAx, if_true, Bool.false_eq_true, if_false, Option.orElse_none, hax0, bind_eq_ok] at ha
  obtain ⟨ls, hls, ls2, hls2, ha⟩ := ha
  have hal : List.Forall₂ (AxLeafOK axes0) ls boxes := by
    unfold alignLeaves alignAxes at hls
    simp only [hallObs, hallAx, hallNone, if_true, Bool.false_eq_true, if_false, bind_eq_ok] at hls
    obtain ⟨l1, hl1, hls⟩ := hls
    have h1 : List.Forall₂ (AxLeafOK axes0) l1 boxes := by
      refine forall2_mapM hleaves ?_ hl1
      rintro s s' b ⟨obs, hob⟩ hss
      exact hob.withAxes hnd0 hss
    refine forall2_mapM h1 ?_ hls
    intro s s' b hob hss
    simp only [Space.withObs, hob.1] at hss
    cases hss
    exact hob
  have hlim : ls2 = ls := by
    have hh : ls.all Space.hasLimits = true := forall2_all hal (fun _ _ h => h.hasLimits.1)
    unfold checkLeafLimits at hls2
    simp only [hh, if_true, Except.ok.injEq] at hls2
    exact hls2.symm
  subst hlim
  refine ⟨axes0, ?_, by rw [hfl]; simp [hax0]⟩
  split at ha
  · rename_i s
    cases ha
    refine ⟨?_, ?_, hal⟩
    · cases hal with
      | cons h1 _ => exact h1.1
    · cases hal with
      | cons h1 _ => exact h1.2.1
  · simp only [bind_eq_ok, except_pure, Except.ok.injEq] at ha
    obtain ⟨c, hc, rfl⟩ := ha
    have := make_coords hc
    subst this
    exact ⟨rfl, rfl, hal⟩

theorem AxBuilds.rep {A : ASpace} {boxes : List AxBox} (h : AxBuilds A boxes) : ∃ axes, AxRep A axes boxes := by
  induction h with
  | leaf axes lower upper s hs ha =>
    obtain ⟨hi, hco, -, -⟩ := make_rect_inv (a := some axes) (by simp) (by rintro l ⟨⟩; exact ha) hs
    exact ⟨axes, by simp [ASpace.coords, hco], by simp [ASpace.coords, hco], .cons ⟨by rw [hco], by rw [hco], _, hi, List.Perm.refl _⟩ .nil⟩
  | add n As bs A h hA ih =>
    have : List.Forall₂ (fun A b => ∃ axes, AxRep A axes b) (List.ofFn As) (List.ofFn bs) := by
      rw [List.forall₂_iff_get]
      refine ⟨by simp, fun i h1 h2 => ?_⟩
      simp only [List.get_eq_getElem, List.getElem_ofFn]
      exact ih _
    obtain ⟨axes, hr, -⟩ := AxRep.add this hA
    exact ⟨axes, hr⟩

/-- C06 for spaces that have axes only.  Whatever the nesting of additions, the result has axes, one leaf per box in the order of the
additions, all in the order of these axes; a point (given by axis, in this order) is inside exactly if one of the boxes contains it; and
the volume is the sum of the volumes of the boxes. -/
theorem union_by_axes (A : ASpace) (boxes : List AxBox) (h : AxBuilds A boxes) (hne : boxes ≠ []) :
    ∃ axes, A.coords.axes = some axes ∧ A.leaves.length = boxes.length ∧
      (∀ (i : Nat) (leaf : Space) (b : AxBox) (p : Int → Rat), A.leaves[i]? = some leaf → boxes[i]? = some b →
        leaf.coords.axes = some axes ∧
        (ASpace.single leaf).inside [axes.map p] = .ok [b.contains p] ∧ leaf.volume = .ok b.volume) ∧
      (∀ points : List (Int → Rat), A.inside (points.map (fun p => axes.map p)) =
        .ok (points.map (fun p => boxes.any (AxBox.contains · p)))) ∧
      A.volume = .ok (boxes.map AxBox.volume).sum := by
  obtain ⟨axes, hr⟩ := h.rep
  refine ⟨axes, hr.2.1, hr.2.2.length_eq, ?_, hr.inside, hr.volume hne⟩
  intro i leaf b p hl hb
  have hlb : AxLeafOK axes leaf b := by
    obtain ⟨h1, h1'⟩ := List.getElem?_eq_some_iff.1 hl
    obtain ⟨h2, h2'⟩ := List.getElem?_eq_some_iff.1 hb
    have := (List.forall₂_iff_get.1 hr.2.2).2 i h1 h2
    simp only [List.get_eq_getElem, h1', h2'] at this
    exact this
  refine ⟨hlb.2.1, ?_, hlb.volume⟩
  have := hlb.mask [p]
  simpa [ASpace.inside] using this

/-- Two boxes given in different orders of the axes. -/
example : (do
    let a ← (Space.make none (some [0, 1]) (.rect [0, 10] [1, 11])).map ASpace.single
    let b ← (Space.make none (some [1, 0]) (.rect [20, 2] [21, 4])).map ASpace.single
    let ab ← addSpaces [a, b]
    let m ← ab.inside [[1 / 2, 21 / 2], [3, 41 / 2], [41 / 2, 3]]
    return (ab.leaves.length, m, ab.volume)) = .ok (2, [true, true, false], .ok 3) := by decide +kernel

end Zfit.Sp
