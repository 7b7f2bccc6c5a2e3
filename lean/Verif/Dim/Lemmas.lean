import Verif.Dim.Spec
import Mathlib.Data.List.Perm.Basic
import Mathlib.Data.List.Pairwise
import Mathlib.Tactic.Linarith

namespace Zfit.Dim

open Zfit

theorem meets_iff {a b : List String} : meets a b = true ↔ ∃ x, x ∈ a ∧ x ∈ b := by
  simp [meets]

theorem sameSet_meets {a b : List String} (h : sameSet a b = true) (hb : b ≠ []) : meets a b = true := by
  obtain ⟨x, hx⟩ := List.exists_mem_of_ne_nil _ hb
  simp only [sameSet, Bool.and_eq_true, List.all_eq_true, decide_eq_true_eq] at h
  exact meets_iff.2 ⟨x, h.2 x hx, hx⟩

theorem groupSet_new {d : List Group} {k : List String} {v : List Dimensional} (hk : k ≠ [])
    (h : ∀ g ∈ d, meets g.1 k = false) : groupSet d k v = d ++ [(k, v)] := by
  induction d with
  | nil => rfl
  | cons g d ih =>
    obtain ⟨k', v'⟩ := g
    unfold groupSet
    have : ¬ (sameSet k' k = true) := by
      intro hs
      have := h (k', v') List.mem_cons_self
      rw [sameSet_meets hs hk] at this
      cases this
    rw [if_neg this, ih (fun g hg => h g (List.mem_cons_of_mem _ hg))]
    rfl

theorem popFirst_some {obs : List String} {d rest : List Group} {g : Group} (h : popFirst obs d = some (g, rest)) :
    meets g.1 obs = true ∧ d.Perm (g :: rest) := by
  induction d generalizing rest with
  | nil => cases h
  | cons a d ih =>
    unfold popFirst at h
    split at h
    · rename_i hm
      cases h
      exact ⟨hm, List.Perm.refl _⟩
    · rw [Option.map_eq_some_iff] at h
      obtain ⟨⟨g', r⟩, h1, h2⟩ := h
      cases h2
      obtain ⟨e1, e2⟩ := ih h1
      exact ⟨e1, (e2.cons a).trans (List.Perm.swap _ _ _)⟩

theorem popFirst_none {obs : List String} {d : List Group} (h : popFirst obs d = none) :
    ∀ g ∈ d, meets g.1 obs = false := by
  induction d with
  | nil => simp
  | cons a d ih =>
    unfold popFirst at h
    split at h
    · cases h
    · rename_i hm
      rw [Option.map_eq_none_iff] at h
      intro g hg
      rcases List.mem_cons.1 hg with rfl | hg
      · simpa using hm
      · exact ih h g hg

theorem mem_groupSet {d : List Group} {k : List String} {v : List Dimensional} {g : Group}
    (h : g ∈ groupSet d k v) : g ∈ d ∨ (sameSet g.1 k = true ∧ g.2 = v) := by
  induction d with
  | nil =>
    simp only [groupSet, List.mem_singleton] at h
    subst h
    exact Or.inr ⟨by simp [sameSet], rfl⟩
  | cons a d ih =>
    obtain ⟨k', v'⟩ := a
    unfold groupSet at h
    split at h
    · rename_i hs
      rcases List.mem_cons.1 h with rfl | h
      · exact Or.inr ⟨hs, rfl⟩
      · exact Or.inl (List.mem_cons_of_mem _ h)
    · rcases List.mem_cons.1 h with rfl | h
      · exact Or.inl List.mem_cons_self
      · rcases ih h with h | h
        · exact Or.inl (List.mem_cons_of_mem _ h)
        · exact Or.inr h

theorem share_symm {a b : Dimensional} (h : Share a b) : Share b a := by
  obtain ⟨x, h1, h2⟩ := h
  exact ⟨x, h2, h1⟩

theorem Chained.mono {l m : List Dimensional} (h : ∀ x ∈ l, x ∈ m) {a b : Dimensional} (hc : Chained l a b) :
    Chained m a b := by
  induction hc with
  | refl => exact .refl
  | tail _ hbc ih => exact ih.tail ⟨h _ hbc.1, h _ hbc.2.1, hbc.2.2⟩

theorem Chained.symm {l : List Dimensional} {a b : Dimensional} (hc : Chained l a b) : Chained l b a := by
  induction hc with
  | refl => exact .refl
  | tail _ hbc ih => exact Relation.ReflTransGen.head ⟨hbc.2.1, hbc.1, share_symm hbc.2.2⟩ ih

theorem Chained.trans {l : List Dimensional} {a b c : Dimensional} (h : Chained l a b) (h' : Chained l b c) :
    Chained l a c := Relation.ReflTransGen.trans h h'

/-- A group is sound for the objects `pre`: its key holds the observables of its members, which are members of `pre`
and chained among each other. -/
structure GroupOK (pre : List Dimensional) (g : Group) : Prop where
  key : ∀ x, x ∈ g.1 ↔ ∃ a ∈ g.2, x ∈ a.obs
  mem : ∀ a ∈ g.2, a ∈ pre
  chained : ∀ a ∈ g.2, ∀ b ∈ g.2, Chained pre a b

theorem GroupOK.mono {pre pre' : List Dimensional} {g : Group} (h : GroupOK pre g) (hs : ∀ x ∈ pre, x ∈ pre') :
    GroupOK pre' g :=
  ⟨h.key, fun a ha => hs a (h.mem a ha), fun a ha b hb => (h.chained a ha b hb).mono hs⟩

theorem GroupOK.congr {pre : List Dimensional} {k k' : List String} {v : List Dimensional} (h : GroupOK pre (k, v))
    (hs : sameSet k' k = true) : GroupOK pre (k', v) := by
  refine ⟨fun x => ?_, h.mem, h.chained⟩
  rw [← h.key x]
  simp only [sameSet, Bool.and_eq_true, List.all_eq_true, decide_eq_true_eq] at hs
  exact ⟨hs.1 x, hs.2 x⟩

theorem GroupOK.extend {pre : List Dimensional} {g : Group} {d : Dimensional} (h : GroupOK pre g)
    (hm : meets g.1 d.obs = true) : GroupOK (pre ++ [d]) (g.1 ++ d.obs, g.2 ++ [d]) := by
  have hsub : ∀ x ∈ pre, x ∈ pre ++ [d] := fun x hx => List.mem_append_left _ hx
  obtain ⟨x, hx1, hx2⟩ := meets_iff.1 hm
  obtain ⟨a0, ha0, hxa⟩ := (h.key x).1 hx1
  have hd : Chained (pre ++ [d]) a0 d :=
    .single ⟨hsub a0 (h.mem a0 ha0), by simp, x, hxa, hx2⟩
  have hto : ∀ a ∈ g.2 ++ [d], Chained (pre ++ [d]) a d := by
    intro a ha
    rcases List.mem_append.1 ha with ha | ha
    · exact ((h.chained a ha a0 ha0).mono hsub).trans hd
    · simp only [List.mem_singleton] at ha
      subst ha
      exact .refl
  refine ⟨fun y => ?_, ?_, ?_⟩
  · simp only [List.mem_append, List.mem_singleton]
    rw [h.key y]
    constructor
    · rintro (⟨a, ha, hy⟩ | hy)
      · exact ⟨a, Or.inl ha, hy⟩
      · exact ⟨d, Or.inr rfl, hy⟩
    · rintro ⟨a, ha | rfl, hy⟩
      · exact Or.inl ⟨a, ha, hy⟩
      · exact Or.inr hy
  · intro a ha
    rcases List.mem_append.1 ha with ha | ha
    · exact hsub a (h.mem a ha)
    · exact List.mem_append_right _ ha
  · intro a ha b hb
    exact (hto a ha).trans (hto b hb).symm

theorem GroupOK.single (pre : List Dimensional) (d : Dimensional) : GroupOK (pre ++ [d]) (d.obs, [d]) := by
  refine ⟨by simp, by simp, ?_⟩
  intro a ha b hb
  simp only [List.mem_singleton] at ha hb
  subst ha hb
  exact .refl

theorem step_ok {pre : List Dimensional} {gs : List Group} {d : Dimensional} (h : ∀ g ∈ gs, GroupOK pre g) :
    ∀ g ∈ subsetsStep gs d, GroupOK (pre ++ [d]) g := by
  have hsub : ∀ x ∈ pre, x ∈ pre ++ [d] := fun x hx => List.mem_append_left _ hx
  unfold subsetsStep
  intro g hg
  split at hg
  · rename_i g0 rest hp
    obtain ⟨hm, hperm⟩ := popFirst_some hp
    rcases mem_groupSet hg with hg | ⟨h1, h2⟩
    · exact (h g (hperm.mem_iff.2 (List.mem_cons_of_mem _ hg))).mono hsub
    · have := (h g0 (hperm.mem_iff.2 List.mem_cons_self)).extend hm
      have := this.congr h1
      rw [← h2] at this
      exact this
  · rcases mem_groupSet hg with hg | ⟨h1, h2⟩
    · exact (h g hg).mono hsub
    · obtain ⟨k, v⟩ := g
      simp only at h1 h2
      subst h2
      exact (GroupOK.single pre d).congr h1

theorem subsets_ok (dims : List Dimensional) : ∀ g ∈ obsSubsets dims, GroupOK dims g := by
  have key : ∀ (l pre : List Dimensional) (gs : List Group), (∀ g ∈ gs, GroupOK pre g) →
      ∀ g ∈ l.foldl subsetsStep gs, GroupOK (pre ++ l) g := by
    intro l
    induction l with
    | nil => intro pre gs h g hg; simpa using h g hg
    | cons d l ih =>
      intro pre gs h g hg
      have := ih (pre ++ [d]) _ (step_ok h) g hg
      simpa using this
  have := key dims [] [] (by simp)
  simpa [obsSubsets] using this

/-- Groups with pairwise disjoint keys that partition the objects. -/
structure Partition (pre : List Dimensional) (gs : List Group) : Prop where
  ok : ∀ g ∈ gs, GroupOK pre g
  perm : (gs.flatMap (·.2)).Perm pre
  disj : gs.Pairwise (fun g g' => meets g.1 g'.1 = false)

theorem meets_symm (a b : List String) : meets a b = meets b a := by
  rw [Bool.eq_iff_iff, meets_iff, meets_iff]
  constructor <;> rintro ⟨x, h1, h2⟩ <;> exact ⟨x, h2, h1⟩

theorem pairwise_mem {gs : List Group} (h : gs.Pairwise (fun g g' => meets g.1 g'.1 = false)) {g g' : Group}
    (hg : g ∈ gs) (hg' : g' ∈ gs) (hm : meets g.1 g'.1 = true) : g = g' := by
  by_contra hne
  have hp : gs.Pairwise (fun g g' : Group => g ≠ g' → meets g.1 g'.1 = false) := by
    refine List.Pairwise.imp ?_ h
    intro a b h _
    exact h
  have hall : ∀ ⦃x⦄, x ∈ gs → ∀ ⦃y⦄, y ∈ gs → (x ≠ y → meets x.1 y.1 = false) :=
    hp.forall_of_forall_of_flip (fun x _ hne => (hne rfl).elim) (hp.imp fun {a b} h hne => by
      rw [meets_symm]; exact h hne.symm)
  have := hall hg hg' hne
  rw [hm] at this
  cases this

theorem Partition.group_of {pre : List Dimensional} {gs : List Group} (h : Partition pre gs) {a : Dimensional}
    (ha : a ∈ pre) : ∃ g ∈ gs, a ∈ g.2 := by
  have := h.perm.mem_iff.2 ha
  simpa using this

theorem Partition.chain {pre : List Dimensional} {gs : List Group} (h : Partition pre gs) {a b : Dimensional}
    {g : Group} (hg : g ∈ gs) (ha : a ∈ g.2) (hc : Chained pre a b) : b ∈ g.2 := by
  induction hc with
  | refl => exact ha
  | @tail b c _ hbc ih =>
    obtain ⟨hb, hcp, x, hx1, hx2⟩ := hbc
    obtain ⟨g', hg', hcg⟩ := h.group_of hcp
    have : g = g' := pairwise_mem h.disj hg hg' (meets_iff.2 ⟨x, ((h.ok g hg).key x).2 ⟨b, ih, hx1⟩,
      ((h.ok g' hg').key x).2 ⟨c, hcg, hx2⟩⟩)
    rw [this]
    exact hcg

theorem Partition.step {pre : List Dimensional} {gs : List Group} {d : Dimensional} (h : Partition pre gs)
    (hne : d.obs ≠ []) (hb : ∀ a ∈ pre, ∀ b ∈ pre, Share a d → Share b d → Chained pre a b) :
    Partition (pre ++ [d]) (subsetsStep gs d) := by
  refine ⟨step_ok h.ok, ?_, ?_⟩
  · unfold subsetsStep
    split
    · rename_i g0 rest hp
      obtain ⟨hm, hperm⟩ := popFirst_some hp
      have hdisj := (hperm.pairwise_iff (fun {x y} h => by rw [meets_symm]; exact h)).1 h.disj
      rw [List.pairwise_cons] at hdisj
      have hnew : ∀ g ∈ rest, meets g.1 (g0.1 ++ d.obs) = false := by
        intro g hg
        by_contra hcon
        rw [Bool.not_eq_false, meets_iff] at hcon
        obtain ⟨x, hx1, hx2⟩ := hcon
        have hgg : g ∈ gs := hperm.mem_iff.2 (List.mem_cons_of_mem _ hg)
        have hg0 : g0 ∈ gs := hperm.mem_iff.2 List.mem_cons_self
        rcases List.mem_append.1 hx2 with hx2 | hx2
        · have := hdisj.1 g hg
          rw [meets_iff.2 ⟨x, hx2, hx1⟩] at this
          cases this
        · obtain ⟨y, hy1, hy2⟩ := meets_iff.1 hm
          obtain ⟨a, ha, hya⟩ := ((h.ok g0 hg0).key y).1 hy1
          obtain ⟨b, hb', hxb⟩ := ((h.ok g hgg).key x).1 hx1
          have hch := hb a ((h.ok g0 hg0).mem a ha) b ((h.ok g hgg).mem b hb') ⟨y, hya, hy2⟩ ⟨x, hxb, hx2⟩
          have hbg := h.chain hg0 ha hch
          have := hdisj.1 g hg
          rw [meets_iff.2 ⟨x, ((h.ok g0 hg0).key x).2 ⟨b, hbg, hxb⟩, hx1⟩] at this
          cases this
      rw [groupSet_new (by simp [hne]) hnew]
      have e1 : (rest ++ [(g0.1 ++ d.obs, g0.2 ++ [d])]).flatMap (·.2) = rest.flatMap (·.2) ++ (g0.2 ++ [d]) := by
        simp
      rw [e1, ← List.append_assoc]
      apply List.Perm.append_right
      have e2 := hperm.flatMap_right (·.2)
      refine (List.perm_append_comm.trans ?_).trans (e2.symm.trans h.perm)
      simp
    · rename_i hp
      rw [groupSet_new hne (popFirst_none hp)]
      simpa using h.perm.append_right [d]
  · unfold subsetsStep
    split
    · rename_i g0 rest hp
      obtain ⟨hm, hperm⟩ := popFirst_some hp
      have hdisj := (hperm.pairwise_iff (fun {x y} h => by rw [meets_symm]; exact h)).1 h.disj
      rw [List.pairwise_cons] at hdisj
      have hnew : ∀ g ∈ rest, meets g.1 (g0.1 ++ d.obs) = false := by
        intro g hg
        by_contra hcon
        rw [Bool.not_eq_false, meets_iff] at hcon
        obtain ⟨x, hx1, hx2⟩ := hcon
        have hgg : g ∈ gs := hperm.mem_iff.2 (List.mem_cons_of_mem _ hg)
        have hg0 : g0 ∈ gs := hperm.mem_iff.2 List.mem_cons_self
        rcases List.mem_append.1 hx2 with hx2 | hx2
        · have := hdisj.1 g hg
          rw [meets_iff.2 ⟨x, hx2, hx1⟩] at this
          cases this
        · obtain ⟨y, hy1, hy2⟩ := meets_iff.1 hm
          obtain ⟨a, ha, hya⟩ := ((h.ok g0 hg0).key y).1 hy1
          obtain ⟨b, hb', hxb⟩ := ((h.ok g hgg).key x).1 hx1
          have hch := hb a ((h.ok g0 hg0).mem a ha) b ((h.ok g hgg).mem b hb') ⟨y, hya, hy2⟩ ⟨x, hxb, hx2⟩
          have hbg := h.chain hg0 ha hch
          have := hdisj.1 g hg
          rw [meets_iff.2 ⟨x, ((h.ok g0 hg0).key x).2 ⟨b, hbg, hxb⟩, hx1⟩] at this
          cases this
      rw [groupSet_new (by simp [hne]) hnew, List.pairwise_append]
      refine ⟨hdisj.2, by simp, ?_⟩
      intro g hg g' hg'
      simp only [List.mem_singleton] at hg'
      subst hg'
      exact hnew g hg
    · rename_i hp
      rw [groupSet_new hne (popFirst_none hp), List.pairwise_append]
      refine ⟨h.disj, by simp, ?_⟩
      intro g hg g' hg'
      simp only [List.mem_singleton] at hg'
      subst hg'
      exact popFirst_none hp g hg

theorem partition_all {dims : List Dimensional} (hne : ∀ d ∈ dims, d.obs ≠ []) (hb : NoBridge dims) :
    Partition dims (obsSubsets dims) := by
  have key : ∀ (l pre : List Dimensional) (gs : List Group), dims = pre ++ l → Partition pre gs →
      Partition dims (l.foldl subsetsStep gs) := by
    intro l
    induction l with
    | nil => intro pre gs he h; rw [he]; simpa using h
    | cons d l ih =>
      intro pre gs he h
      refine ih (pre ++ [d]) _ (by simp [he]) (h.step ?_ (hb pre d l he))
      apply hne
      rw [he]
      simp
  exact key dims [] [] rfl ⟨by simp, by simp, by simp⟩

/-! ### get_same_obs -/

theorem addAt_length (deps : List (List Nat)) (i k : Nat) : (addAt deps i k).length = deps.length := by
  simp [addAt]

theorem mem_addAt {deps : List (List Nat)} {i k a m : Nat} (hi : i < deps.length) :
    m ∈ (addAt deps i k).getD a [] ↔ m ∈ deps.getD a [] ∨ (a = i ∧ m = k) := by
  simp only [List.getD_eq_getElem?_getD]
  unfold addAt
  rw [List.getElem?_modify]
  by_cases h : i = a
  · subst h
    simp only [if_true, List.getElem?_eq_getElem hi, Option.map_eq_map, Option.map_some, Option.getD_some, true_and]
    split
    · rename_i hk
      constructor
      · exact Or.inl
      · rintro (h | rfl)
        · exact h
        · exact hk
    · simp
  · simp only [h, if_false]
    have : a ≠ i := fun e => h e.symm
    simp [this]

theorem sameInner_length (obs : List (List String)) (i : Nat) (deps : List (List Nat)) (j : Nat) :
    (sameInner obs i deps j).length = deps.length := by
  unfold sameInner
  split <;> simp [addAt_length]

theorem mem_sameInner {obs : List (List String)} {i j a m : Nat} {deps : List (List Nat)} (hi : i < deps.length)
    (hj : j < deps.length) :
    m ∈ (sameInner obs i deps j).getD a [] ↔ m ∈ deps.getD a [] ∨
      (meets (obs.getD i []) (obs.getD j []) = true ∧ ((a = i ∧ (m = i ∨ m = j)) ∨ (a = j ∧ m = i))) := by
  unfold sameInner
  by_cases h : meets (obs.getD i []) (obs.getD j []) = true
  · rw [if_pos h, mem_addAt (by simpa [addAt_length] using hj), mem_addAt (by simpa [addAt_length] using hi),
      mem_addAt hi]
    simp only [h, true_and]
    tauto
  · rw [if_neg h]
    tauto

theorem same_fold {obs : List (List String)} (l : List (Nat × Nat)) {deps : List (List Nat)}
    (hl : ∀ p ∈ l, p.1 < deps.length ∧ p.2 < deps.length) {a m : Nat} :
    m ∈ (l.foldl (fun d p => sameInner obs p.1 d p.2) deps).getD a [] ↔ m ∈ deps.getD a [] ∨
      ∃ p ∈ l, meets (obs.getD p.1 []) (obs.getD p.2 []) = true ∧
        ((a = p.1 ∧ (m = p.1 ∨ m = p.2)) ∨ (a = p.2 ∧ m = p.1)) := by
  induction l generalizing deps with
  | nil => simp
  | cons p l ih =>
    rw [List.foldl_cons, ih (by
      intro q hq
      rw [sameInner_length]
      exact hl q (List.mem_cons_of_mem _ hq)),
      mem_sameInner (hl p List.mem_cons_self).1 (hl p List.mem_cons_self).2]
    simp only [List.mem_cons, exists_eq_or_imp]
    rw [or_assoc]

theorem getSameObs_pairs (obs : List (List String)) :
    getSameObs obs = ((List.range obs.length).flatMap (fun i =>
      ((List.range obs.length).filter (fun j => decide (i < j))).map (fun j => (i, j)))).foldl
        (fun d p => sameInner obs p.1 d p.2) (List.replicate obs.length []) := by
  unfold getSameObs
  rw [List.foldl_flatMap]
  congr 1
  funext d i
  rw [List.foldl_map]

theorem mem_getSameObs {obs : List (List String)} {a m : Nat} :
    m ∈ (getSameObs obs).getD a [] ↔ ∃ i j, i < j ∧ j < obs.length ∧
      meets (obs.getD i []) (obs.getD j []) = true ∧ ((a = i ∧ (m = i ∨ m = j)) ∨ (a = j ∧ m = i)) := by
  rw [getSameObs_pairs, same_fold]
  · have : ∀ x, x ∉ (List.replicate obs.length ([] : List Nat)).getD a [] := by
      intro x
      rw [List.getD_eq_getElem?_getD]
      by_cases h : a < obs.length
      · simp [h]
      · simp [h]
    simp only [this, false_or, List.mem_flatMap, List.mem_range, List.mem_map, List.mem_filter, decide_eq_true_eq]
    constructor
    · rintro ⟨p, ⟨i, hi, j, ⟨hj, hij⟩, rfl⟩, h1, h2⟩
      exact ⟨i, j, hij, hj, h1, h2⟩
    · rintro ⟨i, j, hij, hj, h1, h2⟩
      exact ⟨(i, j), ⟨i, by omega, j, ⟨hj, hij⟩, rfl⟩, h1, h2⟩
  · simp only [List.mem_flatMap, List.mem_range, List.mem_map, List.mem_filter, decide_eq_true_eq,
      List.length_replicate]
    rintro p ⟨i, hi, j, ⟨hj, hij⟩, rfl⟩
    exact ⟨hi, hj⟩

/-! ### overlaps -/

theorem overlapLoop_iff (exact : Bool) (l seen : List (Rat × Rat)) :
    overlapLoop exact seen l = true ↔
      (∃ a ∈ seen, ∃ b ∈ l, pairOverlap exact a b = true) ∨
        ∃ pre a mid b post, l = pre ++ a :: mid ++ b :: post ∧ pairOverlap exact a b = true := by
  induction l generalizing seen with
  | nil => simp [overlapLoop]
  | cons n l ih =>
    unfold overlapLoop
    rw [Bool.or_eq_true, ih, List.any_eq_true]
    constructor
    · rintro (⟨a, ha, h⟩ | ⟨a, ha, b, hb, h⟩ | ⟨pre, a, mid, b, post, rfl, h⟩)
      · exact Or.inl ⟨a, ha, n, List.mem_cons_self, h⟩
      · rcases List.mem_append.1 ha with ha | ha
        · exact Or.inl ⟨a, ha, b, List.mem_cons_of_mem _ hb, h⟩
        · simp only [List.mem_singleton] at ha
          subst ha
          obtain ⟨mid, post, rfl⟩ := List.append_of_mem hb
          exact Or.inr ⟨[], a, mid, b, post, rfl, h⟩
      · exact Or.inr ⟨n :: pre, a, mid, b, post, rfl, h⟩
    · rintro (⟨a, ha, b, hb, h⟩ | ⟨pre, a, mid, b, post, he, h⟩)
      · rcases List.mem_cons.1 hb with rfl | hb
        · exact Or.inl ⟨a, ha, h⟩
        · exact Or.inr (Or.inl ⟨a, List.mem_append_left _ ha, b, hb, h⟩)
      · cases pre with
        | nil =>
          simp only [List.nil_append, List.cons_append, List.cons.injEq] at he
          obtain ⟨rfl, rfl⟩ := he
          exact Or.inr (Or.inl ⟨n, by simp, b, by simp, h⟩)
        | cons p pre =>
          simp only [List.cons_append, List.cons.injEq] at he
          obtain ⟨rfl, rfl⟩ := he
          exact Or.inr (Or.inr ⟨pre, a, mid, b, post, rfl, h⟩)

theorem mem_commonObs {spaces : List LSpace} {ob : String} :
    ob ∈ commonObs spaces ↔ ∃ s ∈ spaces, ob ∈ s.obs := by
  have inner : ∀ (l acc : List String), ob ∈ l.foldl (fun acc ob => if ob ∈ acc then acc else acc ++ [ob]) acc ↔
      ob ∈ acc ∨ ob ∈ l := by
    intro l
    induction l with
    | nil => simp
    | cons a l ih =>
      intro acc
      rw [List.foldl_cons, ih]
      split
      · rename_i h
        simp only [List.mem_cons]
        constructor
        · tauto
        · rintro (h' | rfl | h')
          · exact Or.inl h'
          · exact Or.inl h
          · exact Or.inr h'
      · simp only [List.mem_append, List.mem_cons]
        tauto
  have outer : ∀ (l : List LSpace) (acc : List String),
      ob ∈ l.foldl (fun acc s => s.obs.foldl (fun acc ob => if ob ∈ acc then acc else acc ++ [ob]) acc) acc ↔
      ob ∈ acc ∨ ∃ s ∈ l, ob ∈ s.obs := by
    intro l
    induction l with
    | nil => simp
    | cons a l ih =>
      intro acc
      rw [List.foldl_cons, ih, inner]
      simp only [List.mem_cons, exists_eq_or_imp]
      tauto
  unfold commonObs
  rw [outer]
  simp

theorem intervalsOf_common {spaces : List LSpace} {ob : String} (h : intervalsOf spaces ob ≠ []) :
    ob ∈ commonObs spaces := by
  rw [mem_commonObs]
  obtain ⟨x, hx⟩ := List.exists_mem_of_ne_nil _ h
  unfold intervalsOf at hx
  simp only [List.mem_flatMap, List.mem_filter, decide_eq_true_eq] at hx
  obtain ⟨s, hs, _⟩ := hx
  exact ⟨s, hs.1, hs.2⟩

end Zfit.Dim
