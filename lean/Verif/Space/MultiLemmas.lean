import Verif.Space.Multi
import Verif.Space.Lemmas
import Mathlib.Data.List.Perm.Subperm

/-! Helper lemmas for `MultiSpace`. -/

namespace Zfit.Sp

open Zfit Zfit.Coord

variable {α β : Type}

theorem Picks.perm {idx : List Nat} {l l' : List α} (h : Picks idx l l') (hn : idx.Nodup)
    (hlen : idx.length = l.length) : l'.Perm l := by
  have hsub : idx ⊆ List.range l.length := fun i hi => List.mem_range.2 (h.lt i hi)
  have hp : idx.Perm (List.range l.length) :=
    (List.subperm_of_subset hn hsub).perm_of_length_le (by simp [hlen])
  have e := hp.map (l[·]?)
  rw [h, show (List.range l.length).map (l[·]?) = l.map some from picks_range l] at e
  have := e.filterMap id
  simpa using this

theorem Picks.idx_nodup {idx : List Nat} {l l' : List α} (h : Picks idx l l') (hl : l'.Nodup) : idx.Nodup := by
  have : (idx.map (l[·]?)).Nodup := by
    rw [h]; exact List.Nodup.map (fun _ _ h => Option.some.inj h) hl
  exact List.Nodup.of_map _ this

theorem Picks.zip {idx : List Nat} {l l' : List α} {m m' : List β} (h : Picks idx l l') (h' : Picks idx m m') :
    Picks idx (l.zip m) (l'.zip m') := zip_gather h h'

/-- A leaf in the order `obs` with the limits of the box `b` (in any order). -/
def LeafOK (obs : List String) (s : Space) (b : Box) : Prop :=
  s.coords.obs = some obs ∧ ∃ lims, Inv s lims ∧ List.Perm (obs.zip lims) b

theorem LeafOK.withObs {obs obs' : List String} {s s' : Space} {b : Box} (h : LeafOK obs s b) (hn : obs'.Nodup)
    (hs : s.withObs (some obs') false false = .ok s') : LeafOK obs' s' b ∧ s'.coords.axes.isSome = s.coords.axes.isSome := by
  obtain ⟨ho, lims, hi, hp⟩ := h
  obtain ⟨hlen, hno, -⟩ := hi.obs obs ho
  have hs0 := hs
  unfold Space.withObs at hs
  simp only [bind_eq_ok] at hs
  obtain ⟨c', hc', hs⟩ := hs
  obtain ⟨idx0, h1, -, -, -, h5, h6⟩ := coords_withObs_picks ho hc'
  have hacc : (∀ x ∈ obs', x ∈ obs) ∧ ∀ x ∈ obs, x ∈ obs' := by
    unfold Coords.withObs at hc'
    simp only [ho] at hc'
    split at hc'
    · cases hc'
    split at hc'
    · cases hc'
    split at hc'
    · cases hc'
    rename_i e1 e2 e3
    simp only [List.any_eq_true, decide_eq_true_eq, not_exists, not_and,
      Decidable.not_not] at e2 e3
    exact ⟨e2 (by simp), e3 (by simp)⟩
  have hco : s'.coords = c' := by
    unfold Space.copyWith Space.make at hs
    simp only [bind_eq_ok] at hs
    obtain ⟨c2, hc2, hs⟩ := hs
    have := make_coords hc2
    obtain ⟨oa, -, hs⟩ := hs
    cases hs
    rw [this]
  obtain ⟨idx, lims', hpl, hi', ho', ha'⟩ := withObs_some_step hi hn hs0
  obtain ⟨o2, ho2, hpo⟩ := ho' trivial obs ho
  have hfil : obs'.filter (· ∈ obs) = obs' := by
    rw [List.filter_eq_self]; intro x hx; simpa using hacc.1 x hx
  rw [hfil] at h1
  have : o2 = obs' := by
    rw [hco, h1] at ho2
    exact (Option.some.inj ho2).symm
  subst this
  refine ⟨⟨ho2, lims', hi', ?_⟩, ?_⟩
  · have hpz := hpo.zip hpl
    have hidx := hpo.idx_nodup hn
    refine (hpz.perm hidx ?_).trans hp
    have : o2.Perm obs := (List.subperm_of_subset hn hacc.1).antisymm (List.subperm_of_subset hno hacc.2)
    have := this.length_eq
    have := hpo.length
    simp only [List.length_zip]
    omega
  · rw [hco]
    cases ha : s.coords.axes with
    | none => simp [h5 ha]
    | some a => obtain ⟨a', ha2, -⟩ := h6 a ha; simp [ha2]

theorem LeafOK.dropAxes {obs : List String} {s s' : Space} {b : Box} (h : LeafOK obs s b)
    (hs : s.withAxes none true true = .ok s') : LeafOK obs s' b := by
  obtain ⟨ho, lims, hi, hp⟩ := h
  have hs0 := hs
  unfold Space.withAxes at hs
  simp only [ho] at hs
  cases ha : s.coords.axes with
  | none => simp only [ha] at hs; cases hs; exact ⟨ho, lims, hi, hp⟩
  | some a =>
    simp only [ha] at hs
    refine ⟨?_, lims, ?_, hp⟩
    all_goals
      obtain ⟨hlen, hno, d, hd, hal⟩ := hi.obs obs ho
      obtain ⟨hinv, hco⟩ := make_inv (lims' := lims) (some obs) none hi.ne (by
        intro l hl
        cases hl
        refine ⟨hno, hlen, Or.inl ⟨d, hd, ?_⟩⟩
        rw [hal.filter_self]; exact hal) (by simp) hs
    · rw [hco]
    · exact hinv

theorem LeafOK.hasLimits {obs : List String} {s : Space} {b : Box} (h : LeafOK obs s b) :
    s.hasLimits = true ∧ s.hasRectLimits = true := by
  obtain ⟨ho, lims, hi, hp⟩ := h
  exact hi.hasLimits

theorem LeafOK.nodup {obs : List String} {s : Space} {b : Box} (h : LeafOK obs s b) : obs.Nodup := by
  obtain ⟨ho, lims, hi, hp⟩ := h
  exact (hi.obs obs ho).2.1

theorem contains_perm {b b' : Box} (h : List.Perm b b') (p : String → Rat) : Box.contains b p = Box.contains b' p := by
  unfold Box.contains
  rw [Bool.eq_iff_iff, List.all_eq_true, List.all_eq_true]
  constructor
  · intro hb e he; exact hb e (h.mem_iff.2 he)
  · intro hb e he; exact hb e (h.mem_iff.1 he)

theorem volume_perm {b b' : Box} (h : List.Perm b b') : Box.volume b = Box.volume b' :=
  (h.map _).prod_eq

theorem inBox_contains {obs : List String} {lims : List (Rat × Rat)} (hlen : obs.length = lims.length)
    (p : String → Rat) :
    inBox (lims.map (·.1)) (lims.map (·.2)) (obs.map p) = Box.contains (obs.zip lims) p := by
  unfold inBox Box.contains
  induction obs generalizing lims with
  | nil => simp
  | cons o obs ih =>
    cases lims with
    | nil => simp at hlen
    | cons l lims =>
      simp only [List.map_cons, List.zip_cons_cons, List.all_cons]
      rw [ih (by simpa using hlen)]

theorem LeafOK.mask {obs : List String} {s : Space} {b : Box} (h : LeafOK obs s b) (ps : List (String → Rat)) :
    leafMask (ps.map (fun p => obs.map p)) s = .ok (ps.map (Box.contains b)) := by
  obtain ⟨ho, lims, hi, hp⟩ := h
  obtain ⟨hlen, -⟩ := hi.obs obs ho
  have hrow : ∀ row ∈ ps.map (fun p => obs.map p), row.length = lims.length := by
    intro row hr
    obtain ⟨p, -, rfl⟩ := List.mem_map.1 hr
    simpa using hlen
  have hall : (ps.map (fun p => obs.map p)).all (fun r => decide (r.length = s.coords.nObs)) = true := by
    rw [List.all_eq_true]; intro r hr; rw [hi.nObs]; simpa using hrow r hr
  unfold leafMask Space.inside
  simp only [sanitizeX, hall, if_true, except_bind_ok, Bool.and_false, Bool.false_eq_true, if_false,
    hi.insideRaw hrow, except_pure, List.map_map, Except.ok.injEq]
  apply List.map_congr_left
  intro p _
  simp only [Function.comp_apply]
  rw [inBox_contains hlen, contains_perm hp]

theorem LeafOK.volume {obs : List String} {s : Space} {b : Box} (h : LeafOK obs s b) :
    s.volume = .ok (Box.volume b) := by
  obtain ⟨ho, lims, hi, hp⟩ := h
  obtain ⟨hlen, -⟩ := hi.obs obs ho
  unfold Space.volume
  rw [hi.rectLimits]
  simp only [except_bind_ok, except_pure, Except.ok.injEq]
  rw [← volume_perm hp]
  unfold Box.volume
  rw [← List.prod_eq_foldl]
  congr 1
  clear hi hp ho
  induction obs generalizing lims with
  | nil => cases lims <;> simp_all
  | cons o obs ih =>
    cases lims with
    | nil => simp at hlen
    | cons l lims => simp [ih lims (by simpa using hlen)]

theorem anyMasks_map {γ δ : Type} (rows : List γ) (d : List δ) (t : δ → γ → Bool) :
    anyMasks rows.length (d.map (fun p => rows.map (t p))) = rows.map (fun r => d.any (t · r)) := by
  have key : ∀ (d : List δ) (g : γ → Bool),
      (d.map (fun p => rows.map (t p))).foldl (fun acc m => List.zipWith (· || ·) acc m) (rows.map g) =
        rows.map (fun r => g r || d.any (t · r)) := by
    intro d
    induction d with
    | nil => intro g; simp
    | cons p d ih =>
      intro g
      have : List.zipWith (· || ·) (rows.map g) (rows.map (t p)) = rows.map (fun r => g r || t p r) := by
        rw [List.zipWith_map]
        induction rows <;> simp_all
      simp only [List.map_cons, List.foldl_cons, this, ih, List.any_cons, Bool.or_assoc]
  have := key d (fun _ => false)
  simp only [Bool.false_or] at this
  unfold anyMasks
  rw [← this]
  congr 1
  induction rows <;> simp_all [List.replicate_succ]

/-- All leaves of a space stand for the boxes, in this order, and the space has the observables `obs`. -/
def Rep (A : ASpace) (obs : List String) (boxes : List Box) : Prop :=
  A.coords.obs = some obs ∧ obs ≠ [] ∧ List.Forall₂ (LeafOK obs) A.leaves boxes

theorem forall2_mapM {γ : Type} {f : Space → Except Err Space} {R R' : Space → γ → Prop} {l l' : List Space}
    {bs : List γ} (h : List.Forall₂ R l bs) (hf : ∀ s s' b, R s b → f s = .ok s' → R' s' b)
    (hm : l.mapM f = .ok l') : List.Forall₂ R' l' bs := by
  induction h generalizing l' with
  | nil => cases hm; exact .nil
  | cons hsb _ ih =>
    simp only [List.mapM_cons, bind_eq_ok, except_pure, Except.ok.injEq] at hm
    obtain ⟨s', hs', l2, hl2, rfl⟩ := hm
    exact .cons (hf _ _ _ hsb hs') (ih hl2)

theorem forall2_all {γ : Type} {R : Space → γ → Prop} {P : Space → Bool} {l : List Space} {bs : List γ}
    (h : List.Forall₂ R l bs) (hp : ∀ s b, R s b → P s = true) : l.all P = true := by
  induction h with
  | nil => rfl
  | cons h1 _ ih => rw [List.all_cons, hp _ _ h1, ih]; rfl

theorem LeafOK.set {obs : List String} {s : Space} {b : Box} (h : LeafOK obs s b) :
    s.limitsAreSet = true ∧ s.limitsAreFalse = false := by
  have := h.hasLimits.1
  simpa [Space.hasLimits] using this

theorem Rep.inside {A : ASpace} {obs : List String} {boxes : List Box} (h : Rep A obs boxes)
    (ps : List (String → Rat)) :
    A.inside (ps.map (fun p => obs.map p)) = .ok (ps.map (fun p => boxes.any (Box.contains · p))) := by
  obtain ⟨ho, -, hl⟩ := h
  cases A with
  | single s =>
    simp only [ASpace.leaves] at hl
    cases hl with
    | cons h1 h2 =>
      cases h2
      simp [ASpace.inside, h1.mask]
  | multi spaces c =>
    simp only [ASpace.leaves, ASpace.coords] at hl ho
    have hall : (ps.map (fun p => obs.map p)).all (fun r => decide (r.length = c.nObs)) = true := by
      rw [List.all_eq_true]
      intro r hr
      obtain ⟨p, -, rfl⟩ := List.mem_map.1 hr
      simp [Coords.nObs, ho]
    have hm : spaces.mapM (leafMask (ps.map (fun p => obs.map p))) =
        .ok (boxes.map (fun b => ps.map (Box.contains b))) := by
      clear ho hall
      induction hl with
      | nil => rfl
      | cons h1 _ ih => simp [List.mapM_cons, h1.mask, ih]
    simp only [ASpace.inside, sanitizeX, hall, if_true, except_bind_ok, hm, except_pure, List.length_map,
      Except.ok.injEq]
    exact anyMasks_map ps boxes (fun b p => Box.contains b p)

theorem Rep.volume {A : ASpace} {obs : List String} {boxes : List Box} (h : Rep A obs boxes)
    (hne : boxes ≠ []) : A.volume = .ok (boxes.map Box.volume).sum := by
  obtain ⟨ho, -, hl⟩ := h
  cases A with
  | single s =>
    simp only [ASpace.leaves] at hl
    cases hl with
    | cons h1 h2 =>
      cases h2
      simp [ASpace.volume, h1.volume]
  | multi spaces c =>
    simp only [ASpace.leaves] at hl
    have h1 : spaces.all Space.hasRectLimits = true := forall2_all hl (fun _ _ h => h.hasLimits.2)
    have h2 : spaces.all Space.limitsAreSet = true := forall2_all hl (fun _ _ h => h.set.1)
    have h3 : spaces.all Space.limitsAreFalse = false := by
      cases hl with
      | nil => exact absurd rfl hne
      | cons hd _ => simp [hd.set.2]
    have hm : spaces.mapM Space.volume = .ok (boxes.map Box.volume) := by
      clear h1 h2 h3 hne ho
      induction hl with
      | nil => rfl
      | cons h1 _ ih => simp [List.mapM_cons, h1.volume, ih]
    simp only [ASpace.volume, ASpace.hasLimits, ASpace.hasRectLimits, h1, h2, h3, Bool.not_true, Bool.not_false,
      Bool.and_true, Bool.and_false, Bool.false_eq_true, if_false, hm, except_bind_ok, except_pure, Except.ok.injEq]
    rw [← List.sum_eq_foldl]

theorem Rep.add {As : List ASpace} {bs : List (List Box)} {A : ASpace}
    (h : List.Forall₂ (fun A b => ∃ obs, Rep A obs b) As bs) (ha : addSpaces As = .ok A) :
    ∃ obs, Rep A obs bs.flatten ∧ ((flattenSpaces As).head?.bind (fun s => s.coords.obs)) = some obs := by
  have hleaves : List.Forall₂ (fun s b => ∃ obs, LeafOK obs s b) (flattenSpaces As) bs.flatten := by
    clear ha
    unfold flattenSpaces
    induction h with
    | nil => exact .nil
    | cons h1 _ ih =>
      obtain ⟨obs, -, -, hl⟩ := h1
      simp only [List.flatMap_cons, List.flatten_cons]
      exact List.rel_append (hl.imp fun _ _ hl => ⟨obs, hl⟩) ih
  unfold addSpaces multiMake at ha
  split at ha
  · cases ha
  rename_i first rest hfl
  rw [hfl] at hleaves
  generalize hbs : bs.flatten = boxes at hleaves ⊢
  have hallObs : (first :: rest).all (fun s => s.coords.obs.isSome) = true := by
    refine forall2_all hleaves ?_
    rintro s b ⟨obs, h⟩
    rw [h.1]; rfl
  obtain ⟨obs0, h0⟩ : ∃ obs0 : List String, first.coords.obs = some obs0 ∧ obs0.Nodup ∧ obs0 ≠ [] := by
    cases hleaves with
    | cons h1 _ =>
      obtain ⟨obs, h1⟩ := h1
      refine ⟨obs, h1.1, h1.nodup, ?_⟩
      rintro rfl
      obtain ⟨ho, lims, hi, -⟩ := h1
      exact hi.ne (List.length_eq_zero_iff.1 (hi.obs _ ho).1.symm)
  simp only [hallObs, if_true, Option.orElse_none, h0.1, bind_eq_ok] at ha
  obtain ⟨ls, hls, ls2, hls2, ha⟩ := ha
  have hal : List.Forall₂ (LeafOK obs0) ls boxes := by
    unfold alignLeaves at hls
    simp only [hallObs, if_true, bind_eq_ok] at hls
    obtain ⟨l1, hl1, hls⟩ := hls
    have h1 : List.Forall₂ (LeafOK obs0) l1 boxes := by
      refine forall2_mapM hleaves ?_ hl1
      rintro s s' b ⟨obs, hob⟩ hss
      exact (hob.withObs h0.2.1 hss).1
    by_cases hcond : ((first :: rest).all (fun s => s.coords.axes.isSome) &&
        l1.all (fun s => decide (s.coords.axes = if (first :: rest).all (fun s => s.coords.axes.isSome) = true
          then first.coords.axes else none))) = true
    · rw [if_pos hcond] at hls; cases hls; exact h1
    · rw [if_neg hcond] at hls
      refine forall2_mapM h1 ?_ hls
      intro s s' b hob hss
      exact hob.dropAxes hss
  have hlim : ls2 = ls := by
    have hh : ls.all Space.hasLimits = true := forall2_all hal (fun _ _ h => h.hasLimits.1)
    unfold checkLeafLimits at hls2
    simp only [hh, if_true, Except.ok.injEq] at hls2
    exact hls2.symm
  subst hlim
  refine ⟨obs0, ?_, by rw [hfl]; simp [h0.1]⟩
  split at ha
  · rename_i s
    cases ha
    refine ⟨?_, h0.2.2, hal⟩
    cases hal with
    | cons h1 _ => exact h1.1
  · simp only [bind_eq_ok, except_pure, Except.ok.injEq] at ha
    obtain ⟨c, hc, rfl⟩ := ha
    have := make_coords hc
    subst this
    exact ⟨rfl, h0.2.2, hal⟩

theorem eq_of_perm_map_fst {γ : Type} {l l' : List (String × γ)} (h : l.Perm l') (hm : l.map (·.1) = l'.map (·.1))
    (hn : (l.map (·.1)).Nodup) : l = l' := by
  have hn' : (l'.map (·.1)).Nodup := by rw [← hm]; exact hn
  have hlen := h.length_eq
  apply List.ext_getElem hlen
  intro i h1 h2
  have hmem : l[i] ∈ l' := h.mem_iff.1 (List.getElem_mem h1)
  obtain ⟨j, hj, hjl⟩ := List.getElem_of_mem hmem
  have e1 : (l'.map (·.1))[j]? = (l'.map (·.1))[i]? := by
    have : (l'.map (·.1))[i]? = (l.map (·.1))[i]? := by rw [hm]
    rw [this, List.getElem?_map, List.getElem?_map, List.getElem?_eq_getElem h1, List.getElem?_eq_getElem hj, hjl]
  have : j = i := by
    rw [List.getElem?_map, List.getElem?_eq_getElem hj, Option.map_some] at e1
    exact nodup_getElem?_inj hn' (by rw [List.getElem?_map, List.getElem?_eq_getElem hj]; rfl) e1.symm
  subst this
  exact hjl.symm

end Zfit.Sp
