import Verif.Param.GraphSpec
import Mathlib.Data.List.Nodup
import Mathlib.Tactic.Tauto

namespace Zfit.Par

open Zfit

theorem oset_aux (l acc : List Leaf) :
    (∀ x, x ∈ l.foldl (fun acc x => if x ∈ acc then acc else acc ++ [x]) acc ↔ x ∈ acc ∨ x ∈ l) ∧
    (acc.Nodup → (l.foldl (fun acc x => if x ∈ acc then acc else acc ++ [x]) acc).Nodup) := by
  induction l generalizing acc with
  | nil => simp
  | cons a l ih =>
    simp only [List.foldl_cons]
    obtain ⟨h1, h2⟩ := ih (if a ∈ acc then acc else acc ++ [a])
    constructor
    · intro x
      rw [h1]
      split
      · rename_i h
        simp only [List.mem_cons]
        constructor
        · tauto
        · rintro (h' | rfl | h')
          · exact Or.inl h'
          · exact Or.inl h
          · exact Or.inr h'
      · simp only [List.mem_append, List.mem_cons, List.not_mem_nil, or_false]
        tauto
    · intro hn
      apply h2
      split
      · exact hn
      · rename_i h
        rw [List.nodup_append]
        refine ⟨hn, by simp, ?_⟩
        rintro x hx y hy rfl
        simp only [List.mem_singleton] at hy
        subst hy
        exact h hx

theorem mem_oset {l : List Leaf} {x : Leaf} : x ∈ oset l ↔ x ∈ l := by
  unfold oset
  rw [(oset_aux l []).1]
  simp

theorem nodup_oset (l : List Leaf) : (oset l).Nodup := (oset_aux l []).2 List.nodup_nil

theorem floatOk_iff {fl : Option Bool} {x : Leaf} : floatOk fl x = true ↔ Passes fl x := by
  unfold floatOk Passes
  rcases fl with _ | b
  · simp
  · simp

mutual
theorem mem_indeps (fl : Option Bool) : ∀ (p : Par) (x : Leaf), x ∈ p.indeps fl ↔ Reach p x ∧ Passes fl x
  | .node l deps, x => by
    unfold Par.indeps
    split
    · rename_i hk
      simp only [List.mem_filter, List.mem_singleton, floatOk_iff]
      constructor
      · rintro ⟨rfl, h⟩
        exact ⟨.self hk, h⟩
      · rintro ⟨h, h'⟩
        cases h with
        | self _ => exact ⟨rfl, h'⟩
        | dep hn _ _ => exact (hn hk).elim
    · rename_i hk
      simp only [List.mem_filter, floatOk_iff, mem_oset]
      rw [mem_indepsList fl deps x]
      constructor
      · rintro ⟨⟨d, hd, hr, _⟩, h⟩
        exact ⟨.dep hk hd hr, h⟩
      · rintro ⟨h, h'⟩
        cases h with
        | self hn => exact (hk hn).elim
        | dep _ hd hr => exact ⟨⟨_, hd, hr, h'⟩, h'⟩
theorem mem_indepsList (fl : Option Bool) : ∀ (ps : List Par) (x : Leaf),
    x ∈ Par.indepsList fl ps ↔ ∃ p ∈ ps, Reach p x ∧ Passes fl x
  | [], x => by simp [Par.indepsList]
  | p :: ps, x => by
    unfold Par.indepsList
    rw [List.mem_append, mem_indeps fl p x, mem_indepsList fl ps x]
    simp
end

theorem Reach.indep {p : Par} {x : Leaf} (h : Reach p x) : x.kind = .indep := by
  induction h with
  | self h => exact h
  | dep _ _ _ ih => exact ih

/-- No objection to the filter on `floating`. -/
def Fine (fl ext : Option Bool) (p : Par) : Prop := fl = none ∨ ext = some true ∨ p.leaf.kind = .indep

theorem extractFilter_ok {ps : List Par} {fl ext : Option Bool} (h : ∀ p ∈ ps, Fine fl ext p) :
    ∃ r, extractFilter ps fl ext = .ok r ∧ r.Nodup ∧
      ∀ x, x ∈ r ↔ ∃ p ∈ ps, Contributes ext p x ∧ Passes fl x := by
  rcases ext with _ | _ | _
  · -- none
    have hmem : ∀ x, x ∈ oset (oset (ps.map Par.leaf) ++ oset (Par.indepsList fl ps)) ↔
        (∃ p ∈ ps, x = p.leaf) ∨ ∃ p ∈ ps, Reach p x ∧ Passes fl x := by
      intro x
      rw [mem_oset, List.mem_append, mem_oset, mem_oset, mem_indepsList, List.mem_map]
      constructor
      · rintro (⟨p, hp, rfl⟩ | h)
        · exact Or.inl ⟨p, hp, rfl⟩
        · exact Or.inr h
      · rintro (⟨p, hp, rfl⟩ | h)
        · exact Or.inl ⟨p, hp, rfl⟩
        · exact Or.inr h
    rcases fl with _ | b
    · refine ⟨_, rfl, nodup_oset _, ?_⟩
      intro x
      rw [hmem]
      simp only [Contributes, Passes]
      constructor
      · rintro (⟨p, hp, h⟩ | ⟨p, hp, h, _⟩)
        · exact ⟨p, hp, Or.inl h, by simp⟩
        · exact ⟨p, hp, Or.inr h, by simp⟩
      · rintro ⟨p, hp, h | h, _⟩
        · exact Or.inl ⟨p, hp, h⟩
        · exact Or.inr ⟨p, hp, h, by simp⟩
    · have hall : (oset (oset (ps.map Par.leaf) ++ oset (Par.indepsList (some b) ps))).all (fun l => l.kind == .indep) =
          true := by
        rw [List.all_eq_true]
        intro x hx
        rw [beq_iff_eq]
        rcases (hmem x).1 hx with ⟨p, hp, rfl⟩ | ⟨p, hp, hr, _⟩
        · rcases h p hp with h | h | h
          · cases h
          · cases h
          · exact h
        · exact hr.indep
      refine ⟨(oset (oset (ps.map Par.leaf) ++ oset (Par.indepsList (some b) ps))).filter (fun l => l.floating == b), ?_, ?_, ?_⟩
      · unfold extractFilter
        simp only [hall]
        rfl
      · exact (nodup_oset _).filter _
      · intro x
        rw [List.mem_filter, hmem]
        simp only [Contributes, Passes, beq_iff_eq]
        constructor
        · rintro ⟨⟨p, hp, h⟩ | ⟨p, hp, h, h'⟩, hb⟩
          · exact ⟨p, hp, Or.inl h, by rintro _ ⟨⟩; exact hb⟩
          · exact ⟨p, hp, Or.inr h, h'⟩
        · rintro ⟨p, hp, h | h, h'⟩
          · exact ⟨Or.inl ⟨p, hp, h⟩, h' b rfl⟩
          · exact ⟨Or.inr ⟨p, hp, h, h'⟩, h' b rfl⟩
  · -- some false
    have hmem : ∀ x, x ∈ oset (ps.map Par.leaf) ↔ ∃ p ∈ ps, x = p.leaf := by
      intro x
      rw [mem_oset, List.mem_map]
      constructor <;> rintro ⟨p, hp, rfl⟩ <;> exact ⟨p, hp, rfl⟩
    rcases fl with _ | b
    · refine ⟨_, rfl, nodup_oset _, ?_⟩
      intro x
      rw [hmem]
      simp [Contributes, Passes]
    · have hall : (oset (ps.map Par.leaf)).all (fun l => l.kind == .indep) = true := by
        rw [List.all_eq_true]
        intro x hx
        rw [beq_iff_eq]
        obtain ⟨p, hp, rfl⟩ := (hmem x).1 hx
        rcases h p hp with h | h | h
        · cases h
        · cases h
        · exact h
      refine ⟨(oset (ps.map Par.leaf)).filter (fun l => l.floating == b), ?_, ?_, ?_⟩
      · unfold extractFilter
        simp only [hall]
        rfl
      · exact (nodup_oset _).filter _
      · intro x
        rw [List.mem_filter, hmem]
        simp only [Contributes, Passes, beq_iff_eq]
        constructor
        · rintro ⟨⟨p, hp, h⟩, hb⟩
          exact ⟨p, hp, h, by rintro _ ⟨⟩; exact hb⟩
        · rintro ⟨p, hp, h, h'⟩
          exact ⟨⟨p, hp, h⟩, h' b rfl⟩
  · -- some true
    rcases fl with _ | b
    · refine ⟨_, rfl, nodup_oset _, ?_⟩
      intro x
      rw [mem_oset, mem_indepsList]
      rfl
    · refine ⟨_, rfl, (nodup_oset _).filter _, ?_⟩
      intro x
      rw [List.mem_filter, mem_oset, mem_indepsList]
      simp only [Contributes, Passes, beq_iff_eq]
      constructor
      · rintro ⟨h, _⟩
        exact h
      · rintro ⟨p, hp, h, h'⟩
        exact ⟨⟨p, hp, h, h'⟩, h' b rfl⟩

theorem extractFilter_error {ps : List Par} {fl ext : Option Bool} (h : ¬ ∀ p ∈ ps, Fine fl ext p) :
    extractFilter ps fl ext = .error .valueError := by
  push Not at h
  obtain ⟨p, hp, hf⟩ := h
  unfold Fine at hf
  push Not at hf
  obtain ⟨h1, h2, h3⟩ := hf
  rcases fl with _ | b
  · exact (h1 rfl).elim
  have hmem : ∀ l : List Leaf, p.leaf ∈ l → (l.all fun l => l.kind == .indep) = false := by
    intro l hl
    rw [List.all_eq_false]
    exact ⟨p.leaf, hl, by simpa using h3⟩
  rcases ext with _ | _ | _
  · unfold extractFilter
    simp only
    rw [hmem _ (by rw [mem_oset, List.mem_append, mem_oset]; exact Or.inl (List.mem_map_of_mem hp))]
    rfl
  · unfold extractFilter
    simp only
    rw [hmem _ (by rw [mem_oset]; exact List.mem_map_of_mem hp)]
    rfl
  · exact (h2 rfl).elim

theorem except_map_ok {α β : Type} {f : α → β} {a : α} : (Except.ok a : Except Err α).map f = .ok (f a) := rfl

theorem except_map_error {α β : Type} {f : α → β} {e : Err} : (Except.error e : Except Err α).map f = .error e := rfl

/-- The outcome of asking for the parameters `sel`: a list without duplicates of what they contribute, or `ValueError`
if there is an objection. -/
def Outcome (fl ext : Option Bool) (sel : Par → Prop) (r : Except Err (List Leaf)) : Prop :=
  ((∀ p, sel p → Fine fl ext p) → ∃ l, r = .ok l ∧ l.Nodup ∧ ∀ x, x ∈ l ↔ ∃ p, sel p ∧ Contributes ext p x ∧ Passes fl x) ∧
  ((¬ ∀ p, sel p → Fine fl ext p) → r = .error .valueError)

theorem outcome_extract (ps : List Par) (fl ext : Option Bool) :
    Outcome fl ext (· ∈ ps) (extractFilter ps fl ext) :=
  ⟨extractFilter_ok, extractFilter_error⟩

theorem Outcome.congr {fl ext : Option Bool} {sel sel' : Par → Prop} {r : Except Err (List Leaf)}
    (h : Outcome fl ext sel r) (he : ∀ p, sel p ↔ sel' p) : Outcome fl ext sel' r := by
  have : sel = sel' := funext fun p => propext (he p)
  rwa [← this]

/-- Two outcomes one after the other. -/
theorem Outcome.append {fl ext : Option Bool} {s1 s2 : Par → Prop} {r1 r2 : Except Err (List Leaf)}
    (h1 : Outcome fl ext s1 r1) (h2 : Outcome fl ext s2 r2) (k : List Leaf → List Leaf → List Leaf)
    (hk : ∀ a b x, x ∈ k a b ↔ x ∈ a ∨ x ∈ b) :
    (∀ r, r = (r1 >>= fun a => r2 >>= fun b => (.ok (k a b) : Except Err (List Leaf))) →
      (∀ a b, a.Nodup → b.Nodup → (k a b).Nodup) → Outcome fl ext (fun p => s1 p ∨ s2 p) r) := by
  rintro r rfl hn
  constructor
  · intro h
    obtain ⟨a, rfl, na, ma⟩ := h1.1 fun p hp => h p (Or.inl hp)
    obtain ⟨b, rfl, nb, mb⟩ := h2.1 fun p hp => h p (Or.inr hp)
    refine ⟨k a b, rfl, hn a b na nb, ?_⟩
    intro x
    rw [hk, ma, mb]
    constructor
    · rintro (⟨p, hp, h⟩ | ⟨p, hp, h⟩)
      · exact ⟨p, Or.inl hp, h⟩
      · exact ⟨p, Or.inr hp, h⟩
    · rintro ⟨p, hp | hp, h⟩
      · exact Or.inl ⟨p, hp, h⟩
      · exact Or.inr ⟨p, hp, h⟩
  · intro h
    by_cases hc : ∀ p, s1 p → Fine fl ext p
    · obtain ⟨a, rfl, _⟩ := h1.1 hc
      have : ¬ ∀ p, s2 p → Fine fl ext p := by
        intro hc2
        apply h
        rintro p (hp | hp)
        · exact hc p hp
        · exact hc2 p hp
      rw [h2.2 this]
      rfl
    · rw [h1.2 hc]
      rfl

/-- Removing duplicates at the end. -/
theorem Outcome.append_oset {fl ext : Option Bool} {s1 s2 : Par → Prop} {r1 r2 : Except Err (List Leaf)}
    (h1 : Outcome fl ext s1 r1) (h2 : Outcome fl ext s2 r2) :
    Outcome fl ext (fun p => s1 p ∨ s2 p) (r1 >>= fun a => r2 >>= fun b => .ok (oset (a ++ b))) :=
  h1.append h2 (fun a b => oset (a ++ b)) (fun a b x => by rw [mem_oset, List.mem_append]) _ rfl
    (fun _ _ _ _ => nodup_oset _)

/-- Like `Outcome` without the claim on duplicates (the callers remove them). -/
def OutcomeL (fl ext : Option Bool) (sel : Par → Prop) (r : Except Err (List Leaf)) : Prop :=
  Outcome fl ext sel (r.map oset)

theorem OutcomeL.cons {fl ext : Option Bool} {s1 s2 : Par → Prop} {r1 r2 : Except Err (List Leaf)}
    (h1 : Outcome fl ext s1 r1) (h2 : OutcomeL fl ext s2 r2) :
    OutcomeL fl ext (fun p => s1 p ∨ s2 p) (r1 >>= fun a => r2 >>= fun b => .ok (a ++ b)) := by
  have := h1.append_oset h2
  unfold OutcomeL
  have he : Except.map oset (r1 >>= fun a => r2 >>= fun b => .ok (a ++ b)) =
      (r1 >>= fun a => r2 >>= fun b => .ok (oset (a ++ b))) := by
    rcases r1 with e | a
    · rfl
    · rcases r2 with e | b <;> rfl
  rw [he]
  constructor
  · intro h
    obtain ⟨l, hl, nl, ml⟩ := this.1 h
    rcases r1 with e | a
    · cases hl
    · rcases r2 with e | b
      · cases hl
      · refine ⟨_, rfl, nodup_oset _, ?_⟩
        intro x
        rw [← ml x]
        have hl' : oset (a ++ oset b) = l := by
          have : (Except.ok (oset (a ++ oset b)) : Except Err (List Leaf)) = .ok l := hl
          cases this
          rfl
        rw [← hl', mem_oset, mem_oset, List.mem_append, List.mem_append, mem_oset]
  · intro h
    have := this.2 h
    rcases r1 with e | a
    · exact this
    · rcases r2 with e | b
      · exact this
      · cases this

theorem Outcome.toL {fl ext : Option Bool} {s : Par → Prop} {r : Except Err (List Leaf)} (h : Outcome fl ext s r) :
    OutcomeL fl ext s r := by
  constructor
  · intro hf
    obtain ⟨l, rfl, nl, ml⟩ := h.1 hf
    exact ⟨oset l, rfl, nodup_oset l, fun x => by rw [mem_oset, ml]⟩
  · intro hf
    rw [h.2 hf]
    rfl

theorem outcome_nil {fl ext : Option Bool} : Outcome fl ext (fun _ => False) (.ok []) :=
  ⟨fun _ => ⟨[], rfl, List.nodup_nil, by simp⟩, fun h => (h fun _ hp => hp.elim).elim⟩

/-- The outcome of the shape parameters, before the yield. -/
theorem addYield_false (yld : Option Par) (fl ext : Option Bool) (own : List Leaf) :
    addYield yld fl (some false) ext own = .ok own := by
  unfold addYield
  rw [if_pos rfl]

mutual
theorem getParams_outcome (fl ext : Option Bool) : ∀ (m : Mod) (iy : Option Bool),
    ¬ (iy = some true ∧ m.yld = none) → Outcome fl ext (Selected m iy) (Mod.getParams fl ext m iy)
  | .node ps y subs, iy, hne => by
    have hps := outcome_extract ps fl ext
    unfold Mod.getParams
    by_cases hy : iy = some true
    · subst hy
      simp only [if_true]
      rcases y with _ | y
      · exact (hne ⟨rfl, rfl⟩).elim
      · have h1 := outcome_extract [y] fl ext
        have h2 := h1.append_oset (outcome_nil (fl := fl) (ext := ext))
        refine Outcome.congr (sel := fun p => p ∈ [y] ∨ False) ?_ ?_
        · have he : (do
              let own ← (Except.ok [] : Except Err (List Leaf))
              let withY ← addYield (some y) fl (some true) ext own
              Except.ok withY) = (extractFilter [y] fl ext >>= fun a => Except.ok [] >>= fun b => .ok (oset (a ++ b))) := by
            simp only [addYield, except_bind_ok, if_false, Option.some.injEq, Bool.true_eq_false]
            rcases extractFilter [y] fl ext with e | a <;> rfl
          rw [he]
          exact h2
        · intro p
          unfold Selected Mod.yld
          simp
          exact eq_comm
    · simp only [if_neg hy]
      have hsub := getParamsList_outcome fl ext subs
      have hfinal : ∀ (sel : Par → Prop) (r : Except Err (List Leaf)), Outcome fl ext sel r →
          Outcome fl ext (fun p => sel p ∨ ∃ m ∈ subs, Direct m p)
            (r >>= fun withY => (Mod.getParamsList fl ext subs).map (fun ds => oset (withY ++ ds))) := by
        intro sel r hr
        have := hr.append_oset hsub
        constructor
        · intro h
          obtain ⟨l, hl, nl, ml⟩ := this.1 h
          rcases r with e | a
          · cases hl
          · rcases hm : Mod.getParamsList fl ext subs with e | b
            · rw [hm] at hl
              cases hl
            · refine ⟨_, rfl, nodup_oset _, ?_⟩
              intro x
              rw [← ml x]
              rw [hm] at hl
              have hl' : oset (a ++ oset b) = l := by
                have : (Except.ok (oset (a ++ oset b)) : Except Err (List Leaf)) = .ok l := hl
                cases this
                rfl
              rw [← hl', mem_oset, mem_oset, List.mem_append, List.mem_append, mem_oset]
        · intro h
          have := this.2 h
          rcases r with e | a
          · exact this
          · rcases hm : Mod.getParamsList fl ext subs with e | b
            · rw [hm] at this
              exact this
            · rw [hm] at this
              cases this
      by_cases hf : iy = some false
      · subst hf
        have he : (do
            let own ← extractFilter ps fl ext
            let withY ← addYield y fl (some false) ext own
            (Mod.getParamsList fl ext subs).map (fun ds => oset (withY ++ ds))) =
            (extractFilter ps fl ext >>= fun withY =>
              (Mod.getParamsList fl ext subs).map (fun ds => oset (withY ++ ds))) := by
          simp only [addYield_false]
          rfl
        rw [he]
        refine (hfinal _ _ hps).congr ?_
        intro p
        unfold Selected
        simp only [ne_eq, Option.some.injEq, Bool.false_eq_true, not_false_eq_true, true_and, not_true_eq_false,
          false_and, or_false]
        constructor
        · rintro (h | ⟨m, hm, h⟩)
          · exact .own h
          · exact .sub hm h
        · intro h
          cases h with
          | own h => exact Or.inl h
          | sub hm h => exact Or.inr ⟨_, hm, h⟩
      · have hn : iy = none := by
          rcases iy with _ | _ | _
          · rfl
          · exact (hf rfl).elim
          · exact (hy rfl).elim
        subst hn
        rcases y with _ | y
        · have he : (do
              let own ← extractFilter ps fl ext
              let withY ← addYield none fl none ext own
              (Mod.getParamsList fl ext subs).map (fun ds => oset (withY ++ ds))) =
              (extractFilter ps fl ext >>= fun withY =>
                (Mod.getParamsList fl ext subs).map (fun ds => oset (withY ++ ds))) := by
            have : ∀ own, addYield none fl none ext own = .ok own := by
              intro own
              unfold addYield
              simp
            simp only [this]
            rfl
          rw [he]
          refine (hfinal _ _ hps).congr ?_
          intro p
          unfold Selected Mod.yld
          simp only [ne_eq, reduceCtorEq, not_false_eq_true, true_and, or_false]
          constructor
          · rintro (h | ⟨m, hm, h⟩)
            · exact .own h
            · exact .sub hm h
          · intro h
            cases h with
            | own h => exact Or.inl h
            | sub hm h => exact Or.inr ⟨_, hm, h⟩
        · have hy' := outcome_extract [y] fl ext
          -- the yield comes after the own parameters, but is listed first
          have hboth : Outcome fl ext (fun p => p ∈ ps ∨ p ∈ [y])
              (extractFilter ps fl ext >>= fun own => addYield (some y) fl none ext own) := by
            refine hps.append hy' (fun a b => oset (b ++ a)) (fun a b x => ?_) _ ?_ (fun _ _ _ _ => nodup_oset _)
            · rw [mem_oset, List.mem_append]
              exact or_comm
            · unfold addYield
              simp only [reduceCtorEq, if_false]
              rcases extractFilter ps fl ext with e | a
              · rfl
              · rcases extractFilter [y] fl ext with e | b <;> rfl
          have he : (do
              let own ← extractFilter ps fl ext
              let withY ← addYield (some y) fl none ext own
              (Mod.getParamsList fl ext subs).map (fun ds => oset (withY ++ ds))) =
              ((extractFilter ps fl ext >>= fun own => addYield (some y) fl none ext own) >>= fun withY =>
                (Mod.getParamsList fl ext subs).map (fun ds => oset (withY ++ ds))) := by
            rcases extractFilter ps fl ext with e | a <;> rfl
          rw [he]
          refine (hfinal _ _ hboth).congr ?_
          intro p
          unfold Selected Mod.yld
          simp only [ne_eq, reduceCtorEq, not_false_eq_true, true_and, List.mem_singleton, Option.some.injEq]
          constructor
          · rintro ((h | rfl) | ⟨m, hm, h⟩)
            · exact Or.inl (.own h)
            · exact Or.inr rfl
            · exact Or.inl (.sub hm h)
          · rintro (h | rfl)
            · cases h with
              | own h => exact Or.inl (Or.inl h)
              | sub hm h => exact Or.inr ⟨_, hm, h⟩
            · exact Or.inl (Or.inr rfl)
theorem getParamsList_outcome (fl ext : Option Bool) : ∀ (ms : List Mod),
    OutcomeL fl ext (fun p => ∃ m ∈ ms, Direct m p) (Mod.getParamsList fl ext ms)
  | [] => by
    unfold Mod.getParamsList
    exact (outcome_nil.congr (by simp)).toL
  | m :: ms => by
    unfold Mod.getParamsList
    have h1 := getParams_outcome fl ext m (some false) (by simp)
    have h2 := getParamsList_outcome fl ext ms
    have := OutcomeL.cons h1 h2
    refine Outcome.congr this ?_
    intro p
    unfold Selected
    simp
end

theorem getParams_notExtended (fl ext : Option Bool) (m : Mod) (h : m.yld = none) :
    Mod.getParams fl ext m (some true) = .error .notExtended := by
  obtain ⟨ps, y, subs⟩ := m
  simp only [Mod.yld] at h
  subst h
  unfold Mod.getParams
  simp [addYield]

theorem modelsParams_outcome (fl ext iy : Option Bool) : ∀ (ms : List Mod),
    (∀ m ∈ ms, ¬ (iy = some true ∧ m.yld = none)) →
    OutcomeL fl ext (fun p => ∃ m ∈ ms, Selected m iy p) (modelsParams fl iy ext ms)
  | [], _ => (outcome_nil.congr (by simp)).toL
  | m :: ms, h => by
    have h1 := getParams_outcome fl ext m iy (h m List.mem_cons_self)
    have h2 := modelsParams_outcome fl ext iy ms (fun m hm => h m (List.mem_cons_of_mem _ hm))
    refine Outcome.congr (OutcomeL.cons h1 h2) ?_
    intro p
    simp

theorem constraintsParams_outcome (fl ext : Option Bool) : ∀ (cs : List (List Par)),
    OutcomeL fl ext (fun p => ∃ c ∈ cs, p ∈ c) (constraintsParams fl ext cs)
  | [] => (outcome_nil.congr (by simp)).toL
  | c :: cs => by
    have h1 := outcome_extract c fl ext
    have h2 := constraintsParams_outcome fl ext cs
    refine Outcome.congr (OutcomeL.cons h1 h2) ?_
    intro p
    simp

theorem loss_outcome (l : Loss) (fl iy ext : Option Bool) (h : iy ≠ some true) :
    Outcome fl ext (fun p => (∃ m ∈ l.models, Selected m (if l.extended then iy else some false) p) ∨
      ∃ c ∈ l.constraints, p ∈ c) (l.getParams fl iy ext) := by
  have hne : (if l.extended then iy else some false) ≠ some true := by
    split
    · exact h
    · simp
  have h1 := modelsParams_outcome fl ext (if l.extended then iy else some false) l.models
    (fun m _ hc => hne hc.1)
  have h2 := constraintsParams_outcome fl ext l.constraints
  have := Outcome.append_oset h1 h2
  unfold Loss.getParams
  simp only
  rcases hm : modelsParams fl (if l.extended then iy else some false) ext l.models with e | a
  · rw [hm] at this
    exact this
  · rw [hm] at this
    rcases hc : constraintsParams fl ext l.constraints with e | b
    · rw [hc] at this
      exact this
    · rw [hc] at this
      have e1 : (do
          let a ← Except.map oset (Except.ok a : Except Err (List Leaf))
          let b ← Except.map oset (Except.ok b : Except Err (List Leaf))
          Except.ok (oset (a ++ b))) = Except.ok (oset (oset a ++ oset b)) := rfl
      rw [e1] at this
      constructor
      · intro hf
        obtain ⟨r, hr, nr, mr⟩ := this.1 hf
        refine ⟨_, rfl, nodup_oset _, ?_⟩
        intro x
        cases hr
        rw [← mr x]
        simp only [mem_oset, List.mem_append]
      · intro hf
        have := this.2 hf
        cases this

theorem namesUnique_iff {l : List Leaf} (hn : l.Nodup) :
    namesUnique l = true ↔ ∀ x ∈ l, ∀ y ∈ l, x.name = y.name → x = y := by
  have h1 : namesUnique l = true ↔ (l.map (·.name)).Nodup := by
    unfold namesUnique
    rw [List.all_eq_true, List.nodup_iff_count_le_one]
    constructor
    · intro h n
      by_cases hm : n ∈ l.map (·.name)
      · simpa using h n hm
      · rw [List.count_eq_zero_of_not_mem hm]
        omega
    · intro h n _
      simpa using h n
  rw [h1]
  constructor
  · intro h x hx y hy he
    exact List.inj_on_of_nodup_map h hx hy he
  · intro h
    exact hn.map_on h

/-- The name check on top of an outcome without filters. -/
theorem unique_of_outcome {sel : Par → Prop} {r : Except Err (List Leaf)} (h : Outcome none none sel r) :
    ((r >>= fun all => if namesUnique all then .ok () else .error .paramNameNotUnique : Except Err Unit) = .ok () ↔
      ∀ x y, (∃ p, sel p ∧ Contributes none p x) → (∃ p, sel p ∧ Contributes none p y) → x.name = y.name → x = y) ∧
    ((r >>= fun all => if namesUnique all then .ok () else .error .paramNameNotUnique : Except Err Unit) = .ok () ∨
      (r >>= fun all => if namesUnique all then .ok () else .error .paramNameNotUnique : Except Err Unit) =
        .error .paramNameNotUnique) := by
  obtain ⟨l, rfl, nl, ml⟩ := h.1 (fun p _ => Or.inl rfl)
  have hp : ∀ x, Passes none x := by
    intro x b hb
    cases hb
  simp only [hp, and_true] at ml
  rw [except_bind_ok]
  have hu := namesUnique_iff nl
  constructor
  · have hiff : namesUnique l = true ↔ ∀ x y, (∃ p, sel p ∧ Contributes none p x) →
        (∃ p, sel p ∧ Contributes none p y) → x.name = y.name → x = y := by
      rw [hu]
      simp only [ml]
      constructor
      · intro h x y hx hy
        exact h x hx y hy
      · intro h x hx y hy
        exact h x y hx hy
    rw [← hiff]
    by_cases hc : namesUnique l = true
    · simp [hc]
    · simp [hc]
  · by_cases hc : namesUnique l = true
    · simp [hc]
    · simp [hc]

end Zfit.Par
