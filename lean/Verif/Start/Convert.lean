import Verif.Start.Lemmas

/-! What the conversion of the arguments of `minimize` does: lemmas for C165-C168 and C172. -/

namespace Zfit.Start

open Zfit Zfit.Par

section
variable {v v' : Vals} {loss : LArg} {params : PArg} {init : Option Res} {fresh : Nat} {ps : List Leaf}

theorem finish_ok {ts : List (Par × ℚ)} {ps' : List Leaf} (h : finish v init ts ps = (v', .ok ps')) :
    ps' = ps.filter (·.floating) ∧ ps' ≠ [] ∧ (init = none → v' = v) ∧ (∀ r, init = some r → assignResult v (fromInit ps r ts) r = .ok v') := by
  unfold finish at h
  dsimp only at h
  split at h
  · cases h
  · rename_i w hw
    simp only [Prod.mk.injEq] at h
    obtain ⟨rfl, h⟩ := h
    split at h
    · cases h
    · rename_i he
      cases h
      refine ⟨rfl, by simpa using he, ?_, ?_⟩
      · rintro rfl
        exact (Except.ok.inj hw).symm
      · rintro r rfl
        exact hw

theorem choose_ok {l : LossO} {src : Source} {ts : List (Par × ℚ)} (h : choose v l src ts = (v', .ok ps)) :
    (src = .free ∧ v' = v ∧ ps = l.free) ∨
    (∃ lp, src = .pars lp ∧ lp ≠ [] ∧ assignPars v ts = .ok v' ∧ ps = oset (Par.indepsList (some true) lp)) := by
  unfold choose at h
  cases src with
  | free =>
    simp only [Prod.mk.injEq, Except.ok.injEq] at h
    exact .inl ⟨rfl, h.1.symm, h.2.symm⟩
  | pars lp =>
    right
    dsimp only at h
    split at h
    · cases h
    · rename_i w hw
      simp only [Prod.mk.injEq] at h
      obtain ⟨rfl, h⟩ := h
      split at h
      · cases h
      · rename_i he
        cases h
        exact ⟨lp, rfl, by simpa using he, hw, rfl⟩
  | numbers =>
    dsimp only at h
    split at h
    · cases h
    · split at h <;> cases h

theorem proceed_ok {l : LossO} {src : Source} {ts : List (Par × ℚ)} {z : LossO × List Leaf × Option Res}
    (h : proceed v l init src ts = (v', .ok z)) :
    ∃ v1 ps, choose v l src ts = (v1, .ok ps) ∧ finish v1 init ts ps = (v', .ok z.2.1) ∧ z.2.2 = init := by
  unfold proceed at h
  split at h
  · cases h
  · rename_i v1 ps hc
    split at h
    · cases h
    · rename_i v2 ps' hf
      cases h
      exact ⟨v1, ps, hc, hf, rfl⟩

theorem nodup_filter_free {l : LossO} (h : l.params.Nodup) : l.free.Nodup := h.filter _

theorem mem_collect {lp : List Par} {x : Leaf} :
    x ∈ (oset (Par.indepsList (some true) lp)).filter (·.floating) ↔ (∃ p ∈ lp, Reach p x) ∧ x.floating = true := by
  rw [List.mem_filter, mem_oset, mem_indepsList]
  constructor
  · rintro ⟨⟨p, hp, hr, -⟩, hf⟩
    exact ⟨⟨p, hp, hr⟩, hf⟩
  · rintro ⟨⟨p, hp, hr⟩, hf⟩
    exact ⟨⟨p, hp, hr, fun b hb => by cases hb; exact hf⟩, hf⟩

theorem filter_collect (lp : List Par) :
    (oset (Par.indepsList (some true) lp)).filter (·.floating) = oset (Par.indepsList (some true) lp) := by
  rw [List.filter_eq_self]
  intro x hx
  rw [mem_oset, mem_indepsList] at hx
  obtain ⟨p, hp, hr, hf⟩ := hx
  exact hf true rfl

/-- Which pairs are written for numbers by position. -/
theorem mem_position {l : List Leaf} {vs : List (Option ℚ)} {x : Leaf} {q : ℚ} :
    (x, q) ∈ (((l.map asPar).zip vs).filterMap (fun p => p.2.map (fun q => (p.1, q)))).map (fun p => (p.1.leaf, p.2)) ↔
      ∃ i : Nat, l[i]? = some x ∧ vs[i]? = some (some q) := by
  constructor
  · intro h
    obtain ⟨⟨p, q'⟩, hp, he⟩ := List.mem_map.1 h
    obtain ⟨⟨p', o⟩, hz, hm⟩ := List.mem_filterMap.1 hp
    obtain ⟨i, hi⟩ := List.mem_iff_getElem?.1 hz
    rw [List.getElem?_zip_eq_some] at hi
    obtain ⟨q'', ho, h2⟩ := Option.map_eq_some_iff.1 hm
    simp only [List.getElem?_map, Option.map_eq_some_iff] at hi
    obtain ⟨⟨y, hy, rfl⟩, hv⟩ := hi
    cases h2
    cases he
    dsimp only at ho
    subst ho
    exact ⟨i, hy, hv⟩
  · rintro ⟨i, hx, hv⟩
    refine List.mem_map.2 ⟨(asPar x, q), List.mem_filterMap.2 ⟨(asPar x, some q), ?_, rfl⟩, rfl⟩
    rw [List.mem_iff_getElem?]
    exact ⟨i, List.getElem?_zip_eq_some.2 ⟨by simp [hx], hv⟩⟩

theorem nodup_position {l : List Leaf} (hn : l.Nodup) (vs : List (Option ℚ)) :
    ((((l.map asPar).zip vs).filterMap (fun p => p.2.map (fun q => (p.1, q)))).map (fun p => p.1.leaf)).Nodup := by
  induction l generalizing vs with
  | nil => simp
  | cons x l ih =>
    rw [List.nodup_cons] at hn
    cases vs with
    | nil => simp
    | cons o vs =>
      have ih := ih hn.2 vs
      rw [List.map_cons, List.zip_cons_cons, List.filterMap_cons]
      cases o with
      | none => exact ih
      | some q =>
        simp only [Option.map_some, List.map_cons, List.nodup_cons]
        refine ⟨?_, ih⟩
        intro hx
        obtain ⟨⟨p, q'⟩, hp, he⟩ := List.mem_map.1 hx
        have : (x, q') ∈ (((l.map asPar).zip vs).filterMap (fun p => p.2.map (fun q => (p.1, q)))).map (fun p => (p.1.leaf, p.2)) :=
          List.mem_map.2 ⟨(p, q'), hp, Prod.ext he rfl⟩
        obtain ⟨i, hi, -⟩ := mem_position.1 this
        exact hn.1 (List.mem_of_getElem? hi)

theorem mem_mapping {l : List (Par × Option ℚ)} {x : Leaf} {q : ℚ} :
    (x, q) ∈ (l.filterMap (fun p => p.2.map (fun q => (p.1, q)))).map (fun p => (p.1.leaf, p.2)) ↔ ∃ p, (p, some q) ∈ l ∧ p.leaf = x := by
  constructor
  · intro h
    obtain ⟨⟨p, q'⟩, hp, he⟩ := List.mem_map.1 h
    obtain ⟨⟨p', o⟩, hz, hm⟩ := List.mem_filterMap.1 hp
    obtain ⟨q'', ho, h2⟩ := Option.map_eq_some_iff.1 hm
    cases h2
    cases he
    dsimp only at ho
    subst ho
    exact ⟨_, hz, rfl⟩
  · rintro ⟨p, hp, rfl⟩
    exact List.mem_map.2 ⟨(p, q), List.mem_filterMap.2 ⟨(p, some q), hp, rfl⟩, rfl⟩

theorem nodup_mapping {l : List (Par × Option ℚ)} (hn : (l.map (fun p => p.1.leaf)).Nodup) :
    ((l.filterMap (fun p => p.2.map (fun q => (p.1, q)))).map (fun p => p.1.leaf)).Nodup := by
  refine hn.sublist ?_
  induction l with
  | nil => simp
  | cons p l ih =>
    obtain ⟨p, o⟩ := p
    rw [List.map_cons, List.nodup_cons] at hn
    have ih := ih hn.2
    rw [List.filterMap_cons]
    cases o with
    | none => exact List.Sublist.cons _ ih
    | some q => exact List.Sublist.cons₂ _ ih

/-- The outcome if the parameters are given. -/
theorem pars_ok {l : LossO} {lp : List Par} {ts : List (Par × ℚ)} {z : LossO × List Leaf × Option Res}
    (h : proceed v l init (.pars lp) ts = (v', .ok z)) :
    z.2.2 = init ∧ z.2.1 ≠ [] ∧ z.2.1.Nodup ∧ (∀ x, x ∈ z.2.1 ↔ (∃ p ∈ lp, Reach p x) ∧ x.floating = true) ∧
      ∃ v1, v1 = assign v (ts.map (fun p => (p.1.leaf, p.2))) ∧ (init = none → v' = v1) ∧
        (∀ r, init = some r → assignResult v1 (fromInit z.2.1 r ts) r = .ok v') := by
  obtain ⟨v1, ps, hc, hf, hz⟩ := proceed_ok h
  rcases choose_ok hc with ⟨h1, -, -⟩ | ⟨lp', h1, -, ha, rfl⟩
  · cases h1
  · cases h1
    obtain ⟨h2, h3, h4, h5⟩ := finish_ok hf
    refine ⟨hz, h3, ?_, ?_, v1, (assignPars_ok ha).1, h4, ?_⟩
    · rw [h2]
      exact (nodup_oset _).filter _
    · intro x
      rw [h2, mem_collect]
    · rw [h2, filter_collect]
      exact h5

/-- The outcome if the parameters are those of the loss. -/
theorem free_ok {l : LossO} {ts : List (Par × ℚ)} {z : LossO × List Leaf × Option Res} (hn : l.params.Nodup)
    (h : proceed v l init .free ts = (v', .ok z)) :
    z.2.2 = init ∧ z.2.1 ≠ [] ∧ z.2.1.Nodup ∧ (∀ x, x ∈ z.2.1 ↔ x ∈ l.params ∧ x.floating = true) ∧ (init = none → v' = v) ∧
        (∀ r, init = some r → assignResult v (fromInit z.2.1 r ts) r = .ok v') := by
  obtain ⟨v1, ps, hc, hf, hz⟩ := proceed_ok h
  rcases choose_ok hc with ⟨h1, rfl, rfl⟩ | ⟨lp', h1, -, ha, rfl⟩
  · obtain ⟨h2, h3, h4, h5⟩ := finish_ok hf
    have h6 : l.free.filter (·.floating) = l.free := by
      rw [List.filter_eq_self]
      intro x hx
      exact (mem_free.1 hx).2
    rw [h6] at h2
    refine ⟨hz, h3, ?_, ?_, h4, ?_⟩
    · rw [h2]
      exact nodup_filter_free hn
    · intro x
      rw [h2, mem_free]
    · rw [h2]
      exact h5
  · cases h1

theorem reach_asPar {x y : Leaf} : Reach (asPar x) y ↔ y = x ∧ x.kind = .indep := by
  constructor
  · intro h
    cases h with
    | self h => exact ⟨rfl, h⟩
    | dep _ h => cases h
  · rintro ⟨rfl, h⟩
    exact .self h

/-- What holds after `_check_convert_input` has returned. -/
structure Converted (v : Vals) (loss : LArg) (params : PArg) (init : Option Res) (fresh : Nat) (v' : Vals)
    (z : LossO × List Leaf × Option Res) (ts : List (Par × ℚ)) : Prop where
  init_eq : z.2.2 = usedInit loss init
  ne_nil : z.2.1 ≠ []
  nodup : z.2.1.Nodup
  mem : ∀ x, x ∈ z.2.1 ↔ Behind loss params fresh x ∧ x.floating = true ∧ x.kind = .indep
  given : ∀ x q, (x, q) ∈ ts.map (fun p => (p.1.leaf, p.2)) ↔ Given loss params fresh x q
  given_nodup : (ts.map (fun p => p.1.leaf)).Nodup
  no_init : usedInit loss init = none → v' = assign v (ts.map (fun p => (p.1.leaf, p.2)))
  some_init : ∀ r, usedInit loss init = some r →
    assignResult (assign v (ts.map (fun p => (p.1.leaf, p.2)))) (fromInit z.2.1 r ts) r = .ok v'

theorem unpack_init : (unpackResult loss params init).2.1 = usedInit loss init := by
  unfold unpackResult usedInit
  cases loss <;> cases params <;> rfl

/-- Numbers by position. -/
theorem position_ok {l : LossO} (hn : l.params.Nodup) (hi : ∀ x ∈ l.params, x.kind = .indep) {vs : List (Option ℚ)} {s : Source × List (Par × ℚ)}
    {z : LossO × List Leaf × Option Res} (hs : byPosition l vs = .ok s) (h : proceed v l (usedInit loss init) s.1 s.2 = (v', .ok z))
    (hb : ∀ x, Behind loss params fresh x ↔ x ∈ l.params)
    (hg : ∀ x q, Given loss params fresh x q ↔ ∃ i : Nat, l.free[i]? = some x ∧ vs[i]? = some (some q)) :
    ∃ ts, Converted v loss params init fresh v' z ts := by
  unfold byPosition at hs
  split at hs
  · cases hs
  · cases hs
    obtain ⟨h1, h2, h3, h4, v1, rfl, h6, h7⟩ := pars_ok h
    refine ⟨_, h1, h2, h3, fun x => ?_, fun x q => ?_, nodup_position (nodup_filter_free hn) vs, h6, h7⟩
    · rw [h4, hb]
      constructor
      · rintro ⟨⟨p, hp, hr⟩, hf⟩
        obtain ⟨y, hy, rfl⟩ := List.mem_map.1 hp
        obtain ⟨rfl, hk⟩ := reach_asPar.1 hr
        exact ⟨(mem_free.1 hy).1, hf, hk⟩
      · rintro ⟨hx, hf, hk⟩
        exact ⟨⟨asPar x, List.mem_map_of_mem (mem_free.2 ⟨hx, hf⟩), reach_asPar.2 ⟨rfl, hk⟩⟩, hf⟩
    · rw [hg]
      exact mem_position

/-- Parameters. -/
theorem objs_ok {l : LossO} {lp : List Par} {ts : List (Par × ℚ)} {z : LossO × List Leaf × Option Res}
    (h : proceed v l (usedInit loss init) (.pars lp) ts = (v', .ok z))
    (hb : ∀ x, x.kind = .indep → (Behind loss params fresh x ↔ ∃ p ∈ lp, Reach p x))
    (hg : ∀ x q, (x, q) ∈ ts.map (fun p => (p.1.leaf, p.2)) ↔ Given loss params fresh x q)
    (hn : (ts.map (fun p => p.1.leaf)).Nodup) : Converted v loss params init fresh v' z ts := by
  obtain ⟨h1, h2, h3, h4, v1, rfl, h6, h7⟩ := pars_ok h
  refine ⟨h1, h2, h3, fun x => ?_, hg, hn, h6, h7⟩
  rw [h4]
  constructor
  · rintro ⟨⟨p, hp, hr⟩, hf⟩
    exact ⟨(hb x hr.indep).2 ⟨p, hp, hr⟩, hf, hr.indep⟩
  · rintro ⟨hb', hf, hk⟩
    exact ⟨(hb x hk).1 hb', hf⟩

theorem resolve_objs {l : LossO} {lp : List Par} {ts : List (Par × ℚ)} {s : Source × List (Par × ℚ)} (h : resolve l (.objs lp) ts = .ok s) :
    (lp = [] ∧ byPosition l [] = .ok s) ∨ s = (.pars lp, ts) := by
  unfold resolve at h
  cases lp with
  | nil => exact .inl ⟨rfl, h⟩
  | cons p lp => exact .inr (Except.ok.inj h).symm

theorem position_nil {l : LossO} {s : Source × List (Par × ℚ)} {z : LossO × List Leaf × Option Res}
    (hs : byPosition l [] = .ok s) (h : proceed v l init s.1 s.2 = (v', .ok z)) : False := by
  unfold byPosition at hs
  split at hs
  · cases hs
  · rename_i hl
    have : l.free = [] := by
      rw [← List.length_eq_zero_iff]
      simpa using (not_not.1 hl).symm
    cases hs
    rw [this] at h
    obtain ⟨v1, ps, hc, -⟩ := proceed_ok h
    rcases choose_ok hc with ⟨h1, -⟩ | ⟨lp, h1, h2, -⟩
    · cases h1
    · cases h1
      exact h2 rfl

theorem converted_objs {l : LossO} {lp : List Par} {ts : List (Par × ℚ)} {s : Source × List (Par × ℚ)} {z : LossO × List Leaf × Option Res}
    (hs : resolve l (.objs lp) ts = .ok s) (h : proceed v l (usedInit loss init) s.1 s.2 = (v', .ok z))
    (hb : ∀ x, x.kind = .indep → (Behind loss params fresh x ↔ ∃ p ∈ lp, Reach p x))
    (hg : ∀ x q, (x, q) ∈ ts.map (fun p => (p.1.leaf, p.2)) ↔ Given loss params fresh x q)
    (hn : (ts.map (fun p => p.1.leaf)).Nodup) : ∃ ts, Converted v loss params init fresh v' z ts := by
  rcases resolve_objs hs with ⟨-, hs⟩ | rfl
  · exact (position_nil hs h).elim
  · exact ⟨ts, objs_ok h hb hg hn⟩

/-- What `_check_convert_input` has done when it returns. -/
theorem convert_ok (hr : Regular loss params init) {z : LossO × List Leaf × Option Res}
    (h : convertInput loss params init fresh v = (v', .ok z)) : ∃ ts, Converted v loss params init fresh v' z ts := by
  unfold convertInput at h
  dsimp only at h
  rw [unpack_init] at h
  split at h
  · cases h
  · rename_i l hl
    split at h
    · cases h
    · rename_i s hs
      cases params with
      | none =>
        cases loss with
        | loss l' =>
          cases hl
          cases hs
          obtain ⟨h1, h2, h3, h4, h5, h6⟩ := free_ok (hr.loss_nodup 0 0) h
          refine ⟨[], h1, h2, h3, fun x => ?_, by simp [Given], by simp, h5, h6⟩
          rw [h4]
          exact ⟨fun ⟨a, b⟩ => ⟨a, b, hr.loss_indep 0 0 x a⟩, fun ⟨a, b, _⟩ => ⟨a, b⟩⟩
        | result r =>
          refine converted_objs hs h (fun x hk => ?_) (by simp [unpackResult, unpackMapping, Given]) (by simp [unpackResult, unpackMapping])
          constructor
          · intro hx
            obtain ⟨p, hp, rfl⟩ := List.mem_map.1 (show x ∈ r.params.map (·.1) from hx)
            exact ⟨asPar p.1, List.mem_map_of_mem hp, reach_asPar.2 ⟨rfl, hk⟩⟩
          · rintro ⟨p, hp, hx⟩
            obtain ⟨y, hy, rfl⟩ := List.mem_map.1 hp
            obtain ⟨rfl, -⟩ := reach_asPar.1 hx
            exact List.mem_map_of_mem hy
        | func => cases hl
      | objs lp =>
        have hu : unpackMapping (unpackResult loss (.objs lp) init).1 (unpackResult loss (.objs lp) init).2.2 = (.objs lp, []) := by
          cases loss <;> rfl
        rw [hu] at hs
        exact converted_objs hs h (fun x _ => Iff.rfl) (by simp [Given]) (by simp)
      | values vs =>
        have hu : unpackMapping (unpackResult loss (.values vs) init).1 (unpackResult loss (.values vs) init).2.2 = (.values vs, []) := by
          cases loss <;> rfl
        rw [hu] at hs hl
        have hl' : l = lossOf loss vs.length fresh := by
          cases loss with
          | loss l' => exact (Except.ok.inj hl).symm
          | result r => exact (Except.ok.inj hl).symm
          | func =>
            unfold makeLoss at hl
            dsimp only at hl
            split at hl
            · exact (Except.ok.inj hl).symm
            · cases hl
        subst hl'
        exact position_ok (hr.loss_nodup _ _) (hr.loss_indep _ _) hs h (fun x => Iff.rfl) (fun x q => Iff.rfl)
      | array l' =>
        exfalso
        have hu : ∃ t, unpackMapping (unpackResult loss (.array l') init).1 (unpackResult loss (.array l') init).2.2 = (.array l', t) := by
          cases loss <;> exact ⟨_, rfl⟩
        obtain ⟨t, hu⟩ := hu
        rw [hu] at hs
        cases hs
        obtain ⟨v1, ps, hc, -⟩ := proceed_ok h
        rcases choose_ok hc with ⟨h1, -⟩ | ⟨lp, h1, -⟩ <;> cases h1
      | mapping lm =>
        have hu : unpackMapping (unpackResult loss (.mapping lm) init).1 (unpackResult loss (.mapping lm) init).2.2 =
            (.objs (lm.map (·.1)), lm.filterMap (fun p => p.2.map (fun q => (p.1, q)))) := by
          cases loss <;> rfl
        rw [hu] at hs
        refine converted_objs hs h (fun x _ => ?_) (fun x q => mem_mapping) (nodup_mapping (hr.mapping_nodup lm rfl))
        constructor
        · rintro ⟨p, hp, hx⟩
          exact ⟨p.1, List.mem_map_of_mem hp, hx⟩
        · rintro ⟨p, hp, hx⟩
          obtain ⟨y, hy, rfl⟩ := List.mem_map.1 hp
          exact ⟨y, hy, hx⟩

theorem start_ok (h : start loss params init fresh v = (v', .ok ps)) :
    ∃ v1 l ini, convertInput loss params init fresh v = (v1, .ok (l, ps, ini)) ∧ (ini = none → v' = v1) ∧ (∀ r, ini = some r → assignResult v1 ps r = .ok v') := by
  unfold start at h
  split at h
  · cases h
  · rename_i v1 l ps' hc
    cases h
    exact ⟨_, _, _, hc, fun _ => rfl, fun r hr => by cases hr⟩
  · rename_i v1 l ps' r hc
    split at h
    · cases h
    · rename_i v2 ha
      cases h
      exact ⟨_, _, _, hc, fun hr => (by cases hr), fun r' hr => by cases hr; exact ha⟩

end

end Zfit.Start
