import Verif.Limit.Model
import Mathlib.Tactic.Ring
import Mathlib.Tactic.FieldSimp
import Mathlib.Tactic.Linarith
import Mathlib.Data.List.Nodup

/-! Properties C208-C209: limits given by functions. -/

namespace Zfit.Lims

open Zfit

/-! ## Vocabulary of the statements -/

/-- One condition on a point: an observable lies in an interval, or a function accepts the values of some observables,
in this order. -/
inductive Cond
  | box (o : String) (lo up : Rat)
  | fn (f : Nat) (key : List String)
  deriving DecidableEq, Repr

/-- The observables of a condition. -/
def Cond.obs : Cond → List String
  | .box o _ _ => [o]
  | .fn _ key => key

/-- A point (a value for every name) meets a condition. -/
def Cond.holds (sem : Nat → List Rat → Bool) (p : String → Rat) : Cond → Bool
  | .box o lo up => decide (lo ≤ p o) && decide (p o ≤ up)
  | .fn f key => sem f (key.map p)

/-- A request cuts a condition: it asks for some of its observables but not for all. -/
def Cond.cut (req : List String) (c : Cond) : Prop := (∃ o ∈ c.obs, o ∈ req) ∧ (∃ o ∈ c.obs, o ∉ req)

/-- The conditions that remain when only some observables are asked for. -/
def within (req : List String) (cs : List Cond) : List Cond := cs.filter (fun c => c.obs.all (· ∈ req))

/-- The histories of a space with limits, and the conditions the user put on a point with them: a rectangle or a function
given to `Space`, products of spaces without a common observable, `with_obs` that does not cut a condition, and
`get_subspace`. -/
inductive Made : Space → List Cond → Prop
  | rect (obs : List String) (lo up : List Rat) (s : Space)
      (h : Space.init (some obs) { limits := some (.pair lo up) } = .ok s) :
      Made s (List.zipWith (fun o (q : Rat × Rat) => Cond.box o q.1 q.2) obs (lo.zip up))
  | fn (obs : List String) (f : Nat) (lo up : List Rat) (s : Space)
      (h : Space.init (some obs) { limits := some (.fn f), rectLimits := some (.pair lo up) } = .ok s) :
      Made s [.fn f obs]
  | product (s t u : Space) (cs ct : List Cond) (hs : Made s cs) (ht : Made t ct)
      (hd : ∀ o ∈ s.obs, o ∉ t.obs) (h : s.product t = .ok u) : Made u (cs ++ ct)
  | withObs (s s' : Space) (cs : List Cond) (req : List String) (hs : Made s cs)
      (hc : ∀ c ∈ cs, ¬ c.cut req) (h : s.withObs req = .ok s') : Made s' (within req cs)
  | subspace (s s' : Space) (cs : List Cond) (req : List String) (hs : Made s cs)
      (h : s.subspace req = .ok s') : Made s' (within req cs)

/-! ## Invariant -/

/-- The condition of an entry of the limits dictionary. -/
def toCond : List String × Lim → Option Cond
  | ([o], .rect lo up) => some (.box o lo up)
  | (key, .fn f _ _) => some (.fn f key)
  | _ => none

/-- The dictionary has exactly the conditions, on own observables, and no binning. -/
structure Inv (s : Space) (cs : List Cond) : Prop where
  cond : ∀ c, c ∈ cs ↔ ∃ e ∈ s.lims, toCond e = some c
  all : ∀ e ∈ s.lims, (toCond e).isSome
  own : ∀ e ∈ s.lims, ∀ o ∈ e.1, o ∈ s.obs
  ne : ∀ e ∈ s.lims, e.1 ≠ []
  nobin : s.bins = none

theorem toCond_obs {e : List String × Lim} {c : Cond} (h : toCond e = some c) : c.obs = e.1 := by
  unfold toCond at h
  split at h <;> simp_all [Cond.obs] <;> (cases h; rfl)

theorem columns_map (obs key : List String) (p : String → Rat) (h : ∀ o ∈ key, o ∈ obs) :
    columns obs key (obs.map p) = .ok (key.map p) := by
  unfold columns
  have h1 : key.mapM (pyIndex obs) = .ok (key.map (fun o => obs.idxOf o)) := by
    rw [mapM_ok_iff]
    rw [List.map_map]
    apply List.map_congr_left
    intro o ho
    simp [pyIndex, h o ho]
  rw [h1]
  show ((key.map (fun o => obs.idxOf o)).mapM (pyGet (obs.map p))) = _
  rw [mapM_ok_iff, List.map_map, List.map_map]
  apply List.map_congr_left
  intro o ho
  have hl : obs.idxOf o < obs.length := List.idxOf_lt_length_iff.2 (h o ho)
  simp [pyGet, List.getElem?_map, List.getElem?_eq_getElem hl]

theorem insideOne_eq (sem : Nat → List Rat → Bool) (obs : List String) (p : String → Rat) (e : List String × Lim)
    (c : Cond) (hc : toCond e = some c) (ho : ∀ o ∈ e.1, o ∈ obs) :
    insideOne sem obs (obs.map p) e = .ok (c.holds sem p) := by
  unfold insideOne
  rw [columns_map _ _ _ ho]
  show e.2.inside sem (e.1.map p) = _
  unfold toCond at hc
  split at hc <;> simp_all [Lim.inside]
  · subst hc
    simp [Cond.holds]
  · subst hc
    simp [Cond.holds]

theorem Inv.inside {s : Space} {cs : List Cond} (h : Inv s cs) (sem : Nat → List Rat → Bool) (p : String → Rat) :
    s.inside sem (s.obs.map p) = .ok (cs.all (fun c => c.holds sem p)) := by
  unfold Space.inside
  rw [if_neg (by simp)]
  have h1 : s.lims.mapM (insideOne sem s.obs (s.obs.map p)) =
      .ok (s.lims.map (fun e => ((toCond e).map (fun c => c.holds sem p)).getD true)) := by
    rw [mapM_ok_iff, List.map_map]
    apply List.map_congr_left
    intro e he
    obtain ⟨c, hc⟩ := Option.isSome_iff_exists.1 (h.all e he)
    rw [insideOne_eq sem s.obs p e c hc (h.own e he)]
    simp [hc]
  rw [h1]
  show Except.ok _ = _
  congr 1
  rw [Bool.eq_iff_iff]
  simp only [List.all_eq_true, List.mem_map, id, forall_exists_index, and_imp, forall_apply_eq_imp_iff₂]
  constructor
  · intro hh c hc
    obtain ⟨e, he, hec⟩ := (h.cond c).1 hc
    have := hh e he
    simpa [hec] using this
  · intro hh e he
    obtain ⟨c, hc⟩ := Option.isSome_iff_exists.1 (h.all e he)
    simp only [hc, Option.map_some, Option.getD_some]
    exact hh c ((h.cond c).2 ⟨e, he, hc⟩)

theorem make_dict_ok {obs : List String} {d : List (List String × Lim)} {s : Space}
    (h : Space.make (some obs) (.dict d) none none = .ok s) : s = ⟨obs, keepDict obs d, none⟩ := by
  cases obs with
  | nil => simp [Space.make, newObs, except_bind_error] at h
  | cons a l =>
    simp only [Space.make, newObs, newLims, newBins, except_bind_ok, except_pure, Except.ok.injEq] at h
    exact h.symm

theorem keepDict_eq {obs : List String} {d : List (List String × Lim)}
    (h : ∀ e ∈ d, (∃ o ∈ e.1, o ∈ obs) → e.1.head?.any (· ∈ obs)) (hne : ∀ e ∈ d, e.1 ≠ []) :
    keepDict obs d = d.filter (fun e => e.1.any (· ∈ obs)) := by
  unfold keepDict
  apply List.filter_congr
  intro e he
  rw [Bool.eq_iff_iff]
  constructor
  · intro hh
    cases hk : e.1 with
    | nil => exact absurd hk (hne e he)
    | cons a l => simp_all
  · intro hh
    apply h e he
    simpa using hh

theorem extract_ok {req : List String} {d r : List (List String × Lim)} (h : extract req d = .ok r) :
    r = d.filter (fun e => !(e.1.all (fun o => decide (o ∉ req)))) ∧
      ∀ e ∈ d, (∃ o ∈ e.1, o ∈ req) → ∀ o ∈ e.1, o ∈ req := by
  induction d generalizing r with
  | nil =>
    have : r = [] := by simpa [extract] using h.symm
    subst this
    simp
  | cons p d ih =>
    have hd : extract req (p :: d) = if p.1.all (fun o => decide (o ∉ req)) then extract req d
      else if p.1.all (fun o => decide (o ∈ req)) then (extract req d).map (fun r => p :: r)
      else .error .invalidLimitSubspace := rfl
    rw [hd] at h
    by_cases h1 : p.1.all (fun o => decide (o ∉ req)) = true
    · rw [if_pos h1] at h
      obtain ⟨e1, e2⟩ := ih h
      refine ⟨by rw [e1, List.filter_cons]; simp only [h1, Bool.not_true]; rfl, ?_⟩
      intro e he hx
      rcases List.mem_cons.1 he with he | he
      · subst he
        obtain ⟨o, ho, hr⟩ := hx
        have := (List.all_eq_true.1 h1) o ho
        simp [hr] at this
      · exact e2 e he hx
    · rw [if_neg h1] at h
      by_cases h2 : p.1.all (fun o => decide (o ∈ req)) = true
      · rw [if_pos h2] at h
        cases hx : extract req d with
        | error er => rw [hx] at h; simp [Except.map] at h
        | ok r' =>
          rw [hx] at h
          simp only [Except.map, Except.ok.injEq] at h
          obtain ⟨e1, e2⟩ := ih hx
          refine ⟨?_, ?_⟩
          · rw [← h, e1, List.filter_cons]
            simp only [Bool.not_eq_true] at h1
            simp only [h1, Bool.not_false]
            rfl
          · intro e he hh
            rcases List.mem_cons.1 he with he | he
            · subst he
              intro o ho
              simpa using (List.all_eq_true.1 h2) o ho
            · exact e2 e he hh
      · rw [if_neg h2] at h
        cases h

theorem extract_error {req : List String} {d : List (List String × Lim)} {er : Err} (h : extract req d = .error er) :
    er = .invalidLimitSubspace ∧ ∃ e ∈ d, (∃ o ∈ e.1, o ∈ req) ∧ ∃ o ∈ e.1, o ∉ req := by
  induction d with
  | nil => simp [extract] at h
  | cons p d ih =>
    have hd : extract req (p :: d) = if p.1.all (fun o => decide (o ∉ req)) then extract req d
      else if p.1.all (fun o => decide (o ∈ req)) then (extract req d).map (fun r => p :: r)
      else .error .invalidLimitSubspace := rfl
    rw [hd] at h
    by_cases h1 : p.1.all (fun o => decide (o ∉ req)) = true
    · rw [if_pos h1] at h
      obtain ⟨e1, e, he, h'⟩ := ih h
      exact ⟨e1, e, List.mem_cons_of_mem _ he, h'⟩
    · rw [if_neg h1] at h
      by_cases h2 : p.1.all (fun o => decide (o ∈ req)) = true
      · rw [if_pos h2] at h
        cases hx : extract req d with
        | ok r => rw [hx] at h; simp [Except.map] at h
        | error e' =>
          rw [hx] at h
          simp only [Except.map, Except.error.injEq] at h
          subst h
          obtain ⟨e1, e, he, h'⟩ := ih hx
          exact ⟨e1, e, List.mem_cons_of_mem _ he, h'⟩
      · rw [if_neg h2] at h
        cases h
        refine ⟨rfl, p, List.mem_cons_self, ?_, ?_⟩
        · simpa using h1
        · simpa using h2

theorem mem_longestFirst {d : List (List String × Lim)} {e : List String × Lim} :
    e ∈ longestFirst d ↔ e ∈ d := (List.perm_insertionSort _ d).mem_iff

theorem pickObs_ok {own req obs : List String} (h : pickObs own req = .ok obs) :
    obs = req.filter (· ∈ own) := by
  unfold pickObs at h
  split at h <;> simp_all

/-- The invariant of a space made from entries that are not cut. -/
theorem inv_filter {s : Space} {cs : List Cond} (h : Inv s cs) (req obs : List String)
    (hobs : ∀ o, o ∈ obs ↔ o ∈ req ∧ o ∈ s.obs)
    (hc : ∀ e ∈ s.lims, (∃ o ∈ e.1, o ∈ req) → ∀ o ∈ e.1, o ∈ req) (d : List (List String × Lim))
    (hd : ∀ e, e ∈ d ↔ e ∈ s.lims ∧ ∃ o ∈ e.1, o ∈ obs) : Inv ⟨obs, d, none⟩ (within req cs) := by
  refine ⟨?_, fun e he => h.all e ((hd e).1 he).1, ?_, fun e he => h.ne e ((hd e).1 he).1, rfl⟩
  · intro c
    simp only [within, List.mem_filter, List.all_eq_true, decide_eq_true_eq]
    constructor
    · rintro ⟨hcm, hall⟩
      obtain ⟨e, he, hec⟩ := (h.cond c).1 hcm
      refine ⟨e, (hd e).2 ⟨he, ?_⟩, hec⟩
      have ho := toCond_obs hec
      obtain ⟨o, hom⟩ := List.exists_mem_of_ne_nil _ (h.ne e he)
      exact ⟨o, hom, (hobs o).2 ⟨hall o (by rw [ho]; exact hom), h.own e he o hom⟩⟩
    · rintro ⟨e, he, hec⟩
      obtain ⟨he', o, ho, hoo⟩ := (hd e).1 he
      refine ⟨(h.cond c).2 ⟨e, he', hec⟩, ?_⟩
      rw [toCond_obs hec]
      exact hc e he' ⟨o, ho, ((hobs o).1 hoo).1⟩
  · intro e he o ho
    obtain ⟨he', o', ho', hoo⟩ := (hd e).1 he
    exact (hobs o).2 ⟨hc e he' ⟨o', ho', ((hobs o').1 hoo).1⟩ o ho, h.own e he' o ho⟩

theorem Inv.withObs {s s' : Space} {cs : List Cond} {req : List String} (h : Inv s cs)
    (hc : ∀ c ∈ cs, ¬ c.cut req) (hw : s.withObs req = .ok s') : Inv s' (within req cs) := by
  unfold Space.withObs at hw
  obtain ⟨obs, hobs, hw⟩ := bind_eq_ok.1 hw
  rw [h.nobin] at hw
  simp only [pickAxes, except_bind_ok] at hw
  have hs' := make_dict_ok hw
  subst hs'
  have ho := pickObs_ok hobs
  have hobs' : ∀ o, o ∈ obs ↔ o ∈ req ∧ o ∈ s.obs := by
    intro o
    rw [ho]
    simp
  have hcut : ∀ e ∈ s.lims, (∃ o ∈ e.1, o ∈ req) → ∀ o ∈ e.1, o ∈ req := by
    intro e he hx
    obtain ⟨c, hec⟩ := Option.isSome_iff_exists.1 (h.all e he)
    have := hc c ((h.cond c).2 ⟨e, he, hec⟩)
    unfold Cond.cut at this
    rw [toCond_obs hec] at this
    intro o ho'
    by_contra hno
    exact this ⟨hx, o, ho', hno⟩
  apply inv_filter h req obs hobs' hcut
  intro e
  rw [keepDict_eq]
  · simp
  · rintro e he ⟨o, ho', hoo⟩
    cases hk : e.1 with
    | nil => exact absurd hk (h.ne e he)
    | cons a l =>
      have ha : a ∈ e.1 := by rw [hk]; simp
      simp only [List.head?_cons, Option.any_some, decide_eq_true_eq]
      exact (hobs' a).2 ⟨hcut e he ⟨o, ho', ((hobs' o).1 hoo).1⟩ a ha, h.own e he a ha⟩
  · exact h.ne

theorem Inv.subspace {s s' : Space} {cs : List Cond} {req : List String} (h : Inv s cs)
    (hw : s.subspace req = .ok s') : Inv s' (within req cs) := by
  unfold Space.subspace at hw
  obtain ⟨d, hd, hw⟩ := bind_eq_ok.1 hw
  obtain ⟨obs, hobs, hw⟩ := bind_eq_ok.1 hw
  have hs' := make_dict_ok hw
  subst hs'
  have ho := pickObs_ok hobs
  have hobs' : ∀ o, o ∈ obs ↔ o ∈ req ∧ o ∈ s.obs := by
    intro o
    rw [ho]
    simp
  obtain ⟨e1, e2⟩ := extract_ok hd
  have hcut : ∀ e ∈ s.lims, (∃ o ∈ e.1, o ∈ req) → ∀ o ∈ e.1, o ∈ req :=
    fun e he => e2 e (mem_longestFirst.2 he)
  have hmem : ∀ e, e ∈ d ↔ e ∈ s.lims ∧ ∃ o ∈ e.1, o ∈ req := by
    intro e
    rw [e1, List.mem_filter, mem_longestFirst]
    simp
  apply inv_filter h req obs hobs' hcut
  intro e
  rw [keepDict_eq]
  · rw [List.mem_filter, hmem]
    constructor
    · rintro ⟨⟨he, _⟩, hx⟩
      exact ⟨he, by simpa using hx⟩
    · rintro ⟨he, o, ho', hoo⟩
      exact ⟨⟨he, o, ho', ((hobs' o).1 hoo).1⟩, by simpa using ⟨o, ho', hoo⟩⟩
  · rintro e he ⟨o, ho', hoo⟩
    have he' := ((hmem e).1 he).1
    cases hk : e.1 with
    | nil => exact absurd hk (h.ne e he')
    | cons a l =>
      have ha : a ∈ e.1 := by rw [hk]; simp
      simp only [List.head?_cons, Option.any_some, decide_eq_true_eq]
      exact (hobs' a).2 ⟨hcut e he' ⟨o, ho', ((hobs' o).1 hoo).1⟩ a ha, h.own e he' a ha⟩
  · exact fun e he => h.ne e ((hmem e).1 he).1

theorem Inv.product {s t u : Space} {cs ct : List Cond} (h : Inv s cs) (ht : Inv t ct)
    (hw : s.product t = .ok u) : Inv u (cs ++ ct) := by
  unfold Space.product at hw
  obtain ⟨ds, hds, hw⟩ := bind_eq_ok.1 hw
  obtain ⟨dt, hdt, hw⟩ := bind_eq_ok.1 hw
  have hs' := make_dict_ok hw
  subst hs'
  have key : ∀ {r : Space} {cr : List Cond} {d : List (List String × Lim)}, Inv r cr →
      (∀ o ∈ r.obs, o ∈ s.obs ++ t.obs) → extract (s.obs ++ t.obs) (longestFirst r.lims) = .ok d →
      ∀ e, e ∈ d ↔ e ∈ r.lims := by
    intro r cr d hr hsub hd e
    obtain ⟨e1, -⟩ := extract_ok hd
    rw [e1, List.mem_filter, mem_longestFirst]
    constructor
    · exact fun h => h.1
    · intro he
      refine ⟨he, ?_⟩
      obtain ⟨o, ho⟩ := List.exists_mem_of_ne_nil _ (hr.ne e he)
      simp only [Bool.not_eq_true', List.all_eq_false, decide_eq_true_eq, not_not]
      exact ⟨o, ho, hsub o (hr.own e he o ho)⟩
  have ks := key h (fun o ho => List.mem_append_left _ ho) hds
  have kt := key ht (fun o ho => List.mem_append_right _ ho) hdt
  have hmem : ∀ e, e ∈ keepDict (s.obs ++ t.obs) (ds ++ dt) ↔ e ∈ s.lims ∨ e ∈ t.lims := by
    intro e
    unfold keepDict
    rw [List.mem_filter, List.mem_append, ks, kt]
    constructor
    · exact fun h => h.1
    · intro he
      refine ⟨he, ?_⟩
      rcases he with he | he
      · cases hk : e.1 with
        | nil => exact absurd hk (h.ne e he)
        | cons a l =>
          have ha : a ∈ e.1 := by rw [hk]; simp
          simpa using Or.inl (h.own e he a ha)
      · cases hk : e.1 with
        | nil => exact absurd hk (ht.ne e he)
        | cons a l =>
          have ha : a ∈ e.1 := by rw [hk]; simp
          simpa using Or.inr (ht.own e he a ha)
  refine ⟨?_, ?_, ?_, ?_, rfl⟩
  · intro c
    rw [List.mem_append, h.cond, ht.cond]
    constructor
    · rintro (⟨e, he, hec⟩ | ⟨e, he, hec⟩)
      · exact ⟨e, (hmem e).2 (Or.inl he), hec⟩
      · exact ⟨e, (hmem e).2 (Or.inr he), hec⟩
    · rintro ⟨e, he, hec⟩
      rcases (hmem e).1 he with he | he
      · exact Or.inl ⟨e, he, hec⟩
      · exact Or.inr ⟨e, he, hec⟩
  · intro e he
    rcases (hmem e).1 he with he | he
    · exact h.all e he
    · exact ht.all e he
  · intro e he o ho
    rcases (hmem e).1 he with he | he
    · exact List.mem_append_left _ (h.own e he o ho)
    · exact List.mem_append_right _ (ht.own e he o ho)
  · intro e he
    rcases (hmem e).1 he with he | he
    · exact h.ne e he
    · exact ht.ne e he

theorem init_rect {obs : List String} {lo up : List Rat} {s : Space}
    (h : Space.init (some obs) { limits := some (.pair lo up) } = .ok s) : s = ⟨obs, perObs obs lo up, none⟩ := by
  cases obs with
  | nil => simp [Space.init, Args.resolve, Space.make, newObs, except_bind_ok, except_bind_error] at h
  | cons a l =>
    simp only [Space.init, Args.resolve, Space.make, newObs, newLims, newBins, except_bind_ok, except_pure,
      limitsOf, Val.unpack] at h
    cases hc : checkRect (a :: l).length lo up with
    | error e => rw [hc] at h; simp [except_bind_error] at h
    | ok r =>
      rw [hc] at h
      have hr : r = (lo, up) := by
        unfold checkRect at hc
        split at hc
        · cases hc
        · split at hc
          · cases hc
          · split at hc
            · cases hc
            · simpa using hc.symm
      subst hr
      simpa [except_bind_ok] using h.symm

theorem init_fn {obs : List String} {f : Nat} {lo up : List Rat} {s : Space}
    (h : Space.init (some obs) { limits := some (.fn f), rectLimits := some (.pair lo up) } = .ok s) :
    obs ≠ [] ∧ s = ⟨obs, [(obs, .fn f lo up)], none⟩ := by
  cases obs with
  | nil => simp [Space.init, Args.resolve, Space.make, newObs, except_bind_ok, except_bind_error] at h
  | cons a l =>
    refine ⟨by simp, ?_⟩
    simp only [Space.init, Args.resolve, Space.make, newObs, newLims, newBins, except_bind_ok, except_pure,
      limitsOf, Val.unpack] at h
    cases hc : checkRect (a :: l).length lo up with
    | error e => rw [hc] at h; simp [except_bind_error] at h
    | ok r =>
      rw [hc] at h
      have hr : r = (lo, up) := by
        unfold checkRect at hc
        split at hc
        · cases hc
        · split at hc
          · cases hc
          · split at hc
            · cases hc
            · simpa using hc.symm
      subst hr
      simpa [except_bind_ok] using h.symm

theorem perObs_cond (obs : List String) (lo up : List Rat) (c : Cond) :
    c ∈ List.zipWith (fun o (q : Rat × Rat) => Cond.box o q.1 q.2) obs (lo.zip up) ↔
      ∃ e ∈ perObs obs lo up, toCond e = some c := by
  unfold perObs
  generalize lo.zip up = qs
  induction obs generalizing qs with
  | nil => simp
  | cons o obs ih =>
    cases qs with
    | nil => simp
    | cons q qs =>
      simp only [List.zipWith_cons_cons, List.mem_cons, exists_eq_or_imp, ih, toCond, Option.some.injEq]
      constructor
      · rintro (h | h)
        · exact Or.inl h.symm
        · exact Or.inr h
      · rintro (h | h)
        · exact Or.inl h.symm
        · exact Or.inr h

theorem perObs_mem {obs : List String} {lo up : List Rat} {e : List String × Lim} (h : e ∈ perObs obs lo up) :
    ∃ o ∈ obs, ∃ a b, e = ([o], .rect a b) := by
  unfold perObs at h
  generalize lo.zip up = qs at h
  induction obs generalizing qs with
  | nil => simp at h
  | cons o obs ih =>
    cases qs with
    | nil => simp at h
    | cons q qs =>
      rw [List.zipWith_cons_cons] at h
      rcases List.mem_cons.1 h with h | h
      · exact ⟨o, by simp, q.1, q.2, h⟩
      · obtain ⟨o', ho', hh⟩ := ih _ h
        exact ⟨o', List.mem_cons_of_mem _ ho', hh⟩

theorem toCond_fn (key : List String) (f : Nat) (lo up : List Rat) : toCond (key, .fn f lo up) = some (.fn f key) := by
  unfold toCond
  split
  · simp_all
  · simp_all
  · rename_i hx
    exact absurd rfl (hx key f lo up)

theorem Made.inv {s : Space} {cs : List Cond} (h : Made s cs) : Inv s cs := by
  induction h with
  | rect obs lo up s h =>
    have := init_rect h
    subst this
    refine ⟨perObs_cond obs lo up, ?_, ?_, ?_, rfl⟩
    · intro e he
      obtain ⟨o, _, a, b, rfl⟩ := perObs_mem he
      rfl
    · intro e he x hx
      obtain ⟨o, ho, a, b, rfl⟩ := perObs_mem he
      simp only [List.mem_singleton] at hx
      subst hx
      exact ho
    · intro e he
      obtain ⟨o, ho, a, b, rfl⟩ := perObs_mem he
      simp
  | fn obs f lo up s h =>
    obtain ⟨hne, rfl⟩ := init_fn h
    refine ⟨?_, ?_, ?_, ?_, rfl⟩
    · intro c
      simp only [List.mem_singleton, exists_eq_left, toCond_fn, Option.some.injEq]
      exact eq_comm
    · intro e he
      simp only [List.mem_singleton] at he
      subst he
      rw [toCond_fn]
      rfl
    · intro e he o ho
      simp only [List.mem_singleton] at he
      subst he
      exact ho
    · intro e he
      simp only [List.mem_singleton] at he
      subst he
      exact hne
  | product s t u cs ct hs ht hd h ihs iht => exact ihs.product iht h
  | withObs s s' cs req hs hc h ih => exact ih.withObs hc h
  | subspace s s' cs req hs h ih => exact ih.subspace h

/-! ## C208 -/

/-- C208, the part that holds.  Take any space whose limits are rectangles or functions, or a product of such spaces, and
change the order of its observables or restrict it to fewer of them without cutting a function (or with `get_subspace`).
A point is inside exactly if it meets every condition that remains, a function being given the values of its observables
in the order in which they were given with it.
Missing from the full claim: `with_obs` with only some of the observables of a function, see
`with_obs_cuts_violated`. -/
theorem contains_iff_partial (s : Space) (cs : List Cond) (h : Made s cs) (sem : Nat → List Rat → Bool)
    (p : String → Rat) :
    s.inside sem (s.obs.map p) = .ok (cs.all (fun c => c.holds sem p)) := h.inv.inside sem p

/-- C208: reordering with all observables (and possibly further ones) keeps every condition. -/
theorem reorder_keeps (s s' : Space) (cs : List Cond) (h : Made s cs) (req : List String)
    (hall : ∀ o ∈ s.obs, o ∈ req) (hw : s.withObs req = .ok s') (sem : Nat → List Rat → Bool) (p : String → Rat) :
    s'.inside sem (s'.obs.map p) = s.inside sem (s.obs.map p) := by
  have hin : ∀ c ∈ cs, ∀ o ∈ c.obs, o ∈ req := by
    intro c hc o ho
    obtain ⟨e, he, hec⟩ := (h.inv.cond c).1 hc
    rw [toCond_obs hec] at ho
    exact hall o (h.inv.own e he o ho)
  have hm := Made.withObs s s' cs req h (fun c hc hcut => by
    obtain ⟨_, o, ho, hno⟩ := hcut
    exact hno (hin c hc o ho)) hw
  rw [contains_iff_partial s' _ hm, contains_iff_partial s _ h]
  congr 2
  unfold within
  rw [List.filter_eq_self]
  intro c hc
  simpa using hin c hc

/-- Two functions used in the examples: the circle around zero, and a band. -/
def demoSem (f : Nat) (l : List Rat) : Bool :=
  match f, l with
  | 0, [x, y] => decide (x * x + y * y ≤ 1)
  | 1, [x, y] => decide (x ≤ y)
  | _, _ => false

/-- The space of the examples: a function of `x` and `y`. -/
def demo : Space := ⟨["x", "y"], [(["x", "y"], .fn 1 [0, 0] [5, 5])], none⟩

theorem demo_made : Made demo [.fn 1 ["x", "y"]] :=
  Made.fn ["x", "y"] 1 [0, 0] [5, 5] demo (by decide +kernel)

/-- The hypotheses are met: the function `x ≤ y`, times an interval in `z`, reordered. -/
example : ∃ s t u v : Space, Made v (within ["y", "z", "x"] ([Cond.fn 1 ["x", "y"]] ++
      List.zipWith (fun o (q : Rat × Rat) => Cond.box o q.1 q.2) ["z"] ([(0 : Rat)].zip [1]))) ∧
    s.product t = .ok u ∧ u.withObs ["y", "z", "x"] = .ok v ∧ v.obs = ["y", "z", "x"] ∧
    v.inside demoSem [3, 1/2, 2] = .ok true ∧ v.inside demoSem [2, 1/2, 3] = .ok false := by
  refine ⟨demo, ⟨["z"], [(["z"], .rect 0 1)], none⟩,
    ⟨["x", "y", "z"], [(["x", "y"], .fn 1 [0, 0] [5, 5]), (["z"], .rect 0 1)], none⟩,
    ⟨["y", "z", "x"], [(["x", "y"], .fn 1 [0, 0] [5, 5]), (["z"], .rect 0 1)], none⟩, ?_,
    by decide +kernel, by decide +kernel, rfl, by decide +kernel, by decide +kernel⟩
  refine Made.withObs ⟨["x", "y", "z"], [(["x", "y"], .fn 1 [0, 0] [5, 5]), (["z"], .rect 0 1)], none⟩ _ _
    ["y", "z", "x"] (Made.product demo ⟨["z"], [(["z"], .rect 0 1)], none⟩ _ _ _ demo_made
    (Made.rect ["z"] [0] [1] _ (by decide +kernel)) (by decide) (by decide +kernel)) ?_ (by decide +kernel)
  intro c hc
  unfold Cond.cut
  simp at hc
  rcases hc with rfl | rfl <;> simp [Cond.obs]

/-- C208 fails for `with_obs` with only some observables of a function: with its first observable the new space keeps
the function, and every test of a point is an error; with another one the function disappears without an error, the new
space has no limits, and every point counts as inside. -/
theorem with_obs_cuts_violated :
    Made demo [.fn 1 ["x", "y"]] ∧
    (∃ s, demo.withObs ["x"] = .ok s ∧ s.obs = ["x"] ∧
      ∀ (sem : Nat → List Rat → Bool) (v : Rat), s.inside sem [v] = .error .valueError) ∧
    (∃ s, demo.withObs ["y"] = .ok s ∧ s.obs = ["y"] ∧ s.hasLimits = false ∧
      ∀ (sem : Nat → List Rat → Bool) (v : Rat), s.inside sem [v] = .ok true) := by
  refine ⟨demo_made, ⟨⟨["x"], [(["x", "y"], .fn 1 [0, 0] [5, 5])], none⟩, by decide +kernel, rfl, ?_⟩,
    ⟨⟨["y"], [], none⟩, by decide +kernel, rfl, by decide +kernel, ?_⟩⟩
  · intro sem v
    rfl
  · intro sem v
    rfl

/-! ## C209 -/

/-- C209, limits.  `get_subspace` succeeds exactly if one of the observables asked for is there and no function would be
cut; a function that would be cut is refused with `InvalidLimitSubspaceError`. -/
theorem subspace_decision (s : Space) (cs : List Cond) (h : Made s cs) (req : List String) :
    ((∃ s', s.subspace req = .ok s') ↔ (∃ o ∈ req, o ∈ s.obs) ∧ ∀ c ∈ cs, ¬ c.cut req) ∧
    ((∃ c ∈ cs, c.cut req) → s.subspace req = .error .invalidLimitSubspace) := by
  have hi := h.inv
  cases hx : extract req (longestFirst s.lims) with
  | error er =>
    obtain ⟨rfl, e, he, h1, h2⟩ := extract_error hx
    have hsub : s.subspace req = .error .invalidLimitSubspace := by
      unfold Space.subspace
      rw [hx]
      rfl
    obtain ⟨c, hec⟩ := Option.isSome_iff_exists.1 (hi.all e (mem_longestFirst.1 he))
    have hcut : c.cut req := by
      unfold Cond.cut
      rw [toCond_obs hec]
      exact ⟨h1, h2⟩
    refine ⟨⟨?_, ?_⟩, fun _ => hsub⟩
    · rintro ⟨s', hs'⟩
      rw [hsub] at hs'
      cases hs'
    · rintro ⟨_, hno⟩
      exact absurd hcut (hno c ((hi.cond c).2 ⟨e, mem_longestFirst.1 he, hec⟩))
  | ok d =>
    obtain ⟨e1, e2⟩ := extract_ok hx
    have hno : ∀ c ∈ cs, ¬ c.cut req := by
      rintro c hc ⟨h1, o, ho, hr⟩
      obtain ⟨e, he, hec⟩ := (hi.cond c).1 hc
      rw [toCond_obs hec] at h1 ho
      exact hr (e2 e (mem_longestFirst.2 he) h1 o ho)
    refine ⟨⟨?_, ?_⟩, ?_⟩
    · rintro ⟨s', hs'⟩
      refine ⟨?_, hno⟩
      unfold Space.subspace at hs'
      rw [hx, except_bind_ok] at hs'
      obtain ⟨obs, hobs, -⟩ := bind_eq_ok.1 hs'
      unfold pickObs at hobs
      split at hobs
      · rename_i ha
        simpa using ha
      · cases hobs
    · rintro ⟨ha, _⟩
      have hp : pickObs s.obs req = .ok (req.filter (· ∈ s.obs)) := by
        unfold pickObs
        rw [if_pos (by simpa using ha)]
      have hne : req.filter (· ∈ s.obs) ≠ [] := by
        obtain ⟨o, ho, hs⟩ := ha
        intro hh
        have : o ∈ req.filter (· ∈ s.obs) := by simp [ho, hs]
        rw [hh] at this
        simp at this
      refine ⟨⟨req.filter (· ∈ s.obs), keepDict (req.filter (· ∈ s.obs)) d, none⟩, ?_⟩
      unfold Space.subspace
      rw [hx, hp, except_bind_ok, except_bind_ok]
      unfold Space.make
      generalize req.filter (· ∈ s.obs) = l at hne ⊢
      cases l with
      | nil => exact absurd rfl hne
      | cons a l => rfl
    · rintro ⟨c, hc, hcut⟩
      exact absurd hcut (hno c hc)

/-- C209, limits.  The subspace has the observables asked for, in that order, and a point is inside it exactly if it meets
every condition of the space whose observables are asked for. -/
theorem subspace_limits (s s' : Space) (cs : List Cond) (h : Made s cs) (req : List String)
    (hw : s.subspace req = .ok s') :
    s'.obs = req.filter (· ∈ s.obs) ∧ ∀ (sem : Nat → List Rat → Bool) (p : String → Rat),
      s'.inside sem (s'.obs.map p) = .ok ((within req cs).all (fun c => c.holds sem p)) := by
  refine ⟨?_, fun sem p => contains_iff_partial s' _ (Made.subspace s s' cs req h hw) sem p⟩
  unfold Space.subspace at hw
  obtain ⟨d, hd, hw⟩ := bind_eq_ok.1 hw
  obtain ⟨obs, hobs, hw⟩ := bind_eq_ok.1 hw
  have hs' := make_dict_ok hw
  subst hs'
  exact pickObs_ok hobs

/-- A function of `x` and `y` times an interval in `z`: `z` and `(y, x)` are subspaces, `x` alone is refused. -/
example : ∃ u : Space, (∃ cs, Made u cs) ∧ (∃ s, u.subspace ["z"] = .ok s ∧ s.lims = [(["z"], .rect 0 1)]) ∧
    (∃ s, u.subspace ["y", "x"] = .ok s ∧ s.lims = [(["x", "y"], .fn 1 [0, 0] [5, 5])]) ∧
    u.subspace ["x", "z"] = .error .invalidLimitSubspace ∧ u.subspace ["w"] = .error .obsIncompatible := by
  refine ⟨⟨["x", "y", "z"], [(["x", "y"], .fn 1 [0, 0] [5, 5]), (["z"], .rect 0 1)], none⟩,
    ⟨_, Made.product demo _ _ _ _ demo_made (Made.rect ["z"] [0] [1] ⟨["z"], [(["z"], .rect 0 1)], none⟩
      (by decide +kernel)) (by decide) (by decide +kernel)⟩,
    ⟨⟨["z"], [(["z"], .rect 0 1)], none⟩, by decide +kernel, rfl⟩,
    ⟨⟨["y", "x"], [(["x", "y"], .fn 1 [0, 0] [5, 5])], none⟩, by decide +kernel, rfl⟩,
    by decide +kernel, by decide +kernel⟩

/-! ## C214 -/

/-- C214 fails for `get_subspace`: the subspace of a binned space has none, whereas `with_obs` keeps it. -/
theorem subspace_binning_violated :
    ∃ s t u : Space, Space.init (some ["x", "y"]) 
        { limits := some (.pair [0, 0] [1, 2]), binning := some (.vec [1, 2] true) } = .ok s ∧
      s.bins = some [⟨"x", [0, 1]⟩, ⟨"y", [0, 1, 2]⟩] ∧
      s.subspace ["y"] = .ok t ∧ t.bins = none ∧
      s.withObs ["y"] = .ok u ∧ u.bins = some [⟨"y", [0, 1, 2]⟩] := by
  refine ⟨⟨["x", "y"], [(["x"], .rect 0 1), (["y"], .rect 0 2)], some [⟨"x", [0, 1]⟩, ⟨"y", [0, 1, 2]⟩]⟩,
    ⟨["y"], [(["y"], .rect 0 2)], none⟩, ⟨["y"], [(["y"], .rect 0 2)], some [⟨"y", [0, 1, 2]⟩]⟩,
    by decide +kernel, rfl, by decide +kernel, rfl, by decide +kernel, rfl⟩

end Zfit.Lims
