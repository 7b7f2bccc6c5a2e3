import Verif.Start.Convert

/-! # How a minimisation starts: C165, C166, C167, C168, C172, C173 -/

namespace Zfit.Start

open Zfit Zfit.Par

section
variable {v v' : Vals} {loss : LArg} {params : PArg} {init : Option Res} {fresh : Nat} {ps : List Leaf}

/-! ## C165: what is varied -/

/-- C165: a minimisation varies exactly the floating independent parameters behind those it is given (behind those of the loss, or of the result, if
none are given), each once, and at least one. -/
theorem varies (hr : Regular loss params init) (h : start loss params init fresh v = (v', .ok ps)) :
    ps ≠ [] ∧ ps.Nodup ∧ ∀ x, x ∈ ps ↔ Behind loss params fresh x ∧ x.floating = true ∧ x.kind = .indep := by
  obtain ⟨v1, l, ini, hc, -, -⟩ := start_ok h
  obtain ⟨ts, hc⟩ := convert_ok hr hc
  exact ⟨hc.ne_nil, hc.nodup, hc.mem⟩

/-- C165: without any such parameter, nothing is minimised. -/
theorem nothing_to_vary (hr : Regular loss params init) (hn : ∀ x, Behind loss params fresh x → ¬ (x.floating = true ∧ x.kind = .indep)) :
    ∃ e, (start loss params init fresh v).2 = .error e := by
  rcases hs : start loss params init fresh v with ⟨v', e | ps⟩
  · exact ⟨e, rfl⟩
  · obtain ⟨h1, -, h3⟩ := varies hr hs
    obtain ⟨x, hx⟩ := List.exists_mem_of_ne_nil _ h1
    obtain ⟨hb, hf⟩ := (h3 x).1 hx
    exact (hn x hb hf).elim

theorem start_objs (l : LossO) (lp : List Par) (hne : lp ≠ []) (fresh : Nat) (v : Vals) :
    start (.loss l) (.objs lp) none fresh v =
      (v, if (oset (Par.indepsList (some true) lp)).isEmpty then .error .runtimeError else .ok (oset (Par.indepsList (some true) lp))) := by
  obtain ⟨p, lp, rfl⟩ := List.exists_cons_of_ne_nil hne
  simp only [start, convertInput, unpackResult, unpackMapping, makeLoss, resolve, proceed, choose, assignPars, finish, assign,
    List.all_nil, List.map_nil, List.foldl_nil, if_true, List.isEmpty_cons, Bool.false_eq_true, if_false, filter_collect]
  split <;> rename_i hq
  · split at hq
    · cases hq
      rename_i h1
      split at h1
      · rename_i hh
        cases h1
        rw [if_pos hh]
      · cases h1
    · cases hq
  · rename_i a b c
    split at hq
    · cases hq
    · rename_i h1
      split at h1
      · cases h1
      · rename_i hh
        cases h1
        cases hq
        rw [if_neg hh]
  · split at hq <;> cases hq

/-- C165: given parameters with a floating independent one behind them, the minimisation starts, at the current values. -/
theorem starts (l : LossO) (lp : List Par) {p : Par} (hp : p ∈ lp) {x : Leaf} (hx : Reach p x) (hf : x.floating = true) (fresh : Nat) (v : Vals) :
    ∃ ps, start (.loss l) (.objs lp) none fresh v = (v, .ok ps) := by
  rw [start_objs l lp (List.ne_nil_of_mem hp)]
  have : x ∈ oset (Par.indepsList (some true) lp) := by
    rw [mem_oset, mem_indepsList]
    exact ⟨p, hp, hx, fun b hb => by cases hb; exact hf⟩
  rw [if_neg (by rw [List.isEmpty_iff]; exact List.ne_nil_of_mem this)]
  exact ⟨_, rfl⟩

/-- C165: parameters without a floating independent one behind them are refused with a `RuntimeError`. -/
theorem refused (l : LossO) (lp : List Par) (hne : lp ≠ []) (hn : ∀ p ∈ lp, ∀ x, Reach p x → x.floating = false) (fresh : Nat) (v : Vals) :
    start (.loss l) (.objs lp) none fresh v = (v, .error .runtimeError) := by
  rw [start_objs l lp hne]
  rw [if_pos]
  rw [List.isEmpty_iff, List.eq_nil_iff_forall_not_mem]
  intro x hx
  rw [mem_oset, mem_indepsList] at hx
  obtain ⟨p, hp, hr, hf⟩ := hx
  have := hf true rfl
  rw [hn p hp x hr] at this
  cases this

/-! ## C166: the values at the start -/

theorem given_unique (hr : Regular loss params init) {z : LossO × List Leaf × Option Res} {ts : List (Par × ℚ)}
    (hc : Converted v loss params init fresh v' z ts) (w : Vals) :
    (∀ x q, Given loss params fresh x q → assign w (ts.map (fun p => (p.1.leaf, p.2))) x = q) ∧
    (∀ x, (∀ q, ¬ Given loss params fresh x q) → assign w (ts.map (fun p => (p.1.leaf, p.2))) x = w x) := by
  have hm : ((ts.map (fun p => (p.1.leaf, p.2))).map (·.1)).Nodup := by
    rw [List.map_map]
    exact hc.given_nodup
  refine ⟨fun x q hq => assign_mem hm ((hc.given x q).2 hq) w, fun x hx => assign_not_mem ?_ w⟩
  intro hmem
  obtain ⟨⟨y, q⟩, hp, rfl⟩ := List.mem_map.1 hmem
  exact hx q ((hc.given _ q).1 hp)

/-- C166: without a result to start from, a parameter starts at the value that the call gives for it, otherwise at its current value; no other
parameter is changed. -/
theorem start_values (hr : Regular loss params init) (hu : usedInit loss init = none)
    (h : start loss params init fresh v = (v', .ok ps)) :
    (∀ x q, Given loss params fresh x q → v' x = q) ∧ (∀ x, (∀ q, ¬ Given loss params fresh x q) → v' x = v x) := by
  obtain ⟨v1, l, ini, hc, h1, -⟩ := start_ok h
  obtain ⟨ts, hc⟩ := convert_ok hr hc
  have hi : ini = none := hc.init_eq.trans hu
  rw [h1 hi, hc.no_init hu]
  exact given_unique hr hc v

/-- C167 (part): if no values are given for the parameters that are varied, those start at the values of the result, and
everything else is as without the result. Missing from the full claim: the cases of `given_overwritten_violated`. -/
theorem start_from_init_partial (hr : Regular loss params init) {r : Res} (hu : usedInit loss init = some r)
    (h : start loss params init fresh v = (v', .ok ps)) (hg : ∀ x ∈ ps, ∀ q, ¬ Given loss params fresh x q) :
    (∀ x ∈ ps, ∃ q, (x, q) ∈ r.params ∧ v' x = q) ∧ (∀ x q, Given loss params fresh x q → v' x = q) ∧
    (∀ x, x ∉ ps → (∀ q, ¬ Given loss params fresh x q) → v' x = v x) := by
  obtain ⟨v1, l, ini, hc, -, h1⟩ := start_ok h
  obtain ⟨ts, hc⟩ := convert_ok hr hc
  have hi : ini = some r := hc.init_eq.trans hu
  obtain ⟨h2, h3, h4⟩ := assignResult_ok (h1 r hi)
  obtain ⟨-, h5, -⟩ := assignResult_ok (hc.some_init r hu)
  have h6 : ∀ x, x ∉ ps → v1 x = assign v (ts.map (fun p => (p.1.leaf, p.2))) x := by
    intro x hx
    apply h5
    intro hm
    exact hx (List.mem_of_mem_filter (List.mem_of_mem_filter hm))
  obtain ⟨g1, g2⟩ := given_unique hr hc v
  refine ⟨fun x hx => ?_, fun x q hq => ?_, fun x hx hn => ?_⟩
  · obtain ⟨⟨y, q⟩, hp, rfl⟩ := List.mem_map.1 (h2 x hx)
    exact ⟨q, hp, h4 hc.nodup (hr.init_nodup r hu) _ hx q hp⟩
  · have hx : x ∉ ps := fun hx => hg x hx q hq
    rw [h3 x hx, h6 x hx, g1 x q hq]
  · rw [h3 x hx, h6 x hx, g2 x hn]

/-- With a result to start from, all parameters that are varied start at its values, whatever the call gives. -/
theorem init_wins (hr : Regular loss params init) {r : Res} (hu : usedInit loss init = some r)
    (h : start loss params init fresh v = (v', .ok ps)) : ∀ x ∈ ps, ∀ q, (x, q) ∈ r.params → v' x = q := by
  obtain ⟨v1, l, ini, hc, -, h1⟩ := start_ok h
  obtain ⟨ts, hc⟩ := convert_ok hr hc
  exact (assignResult_ok (h1 r (hc.init_eq.trans hu))).2.2 hc.nodup (hr.init_nodup r hu)

def mu : Leaf := ⟨1, "mu", .indep, true⟩
def sigma : Leaf := ⟨2, "sigma", .indep, true⟩
def fixedOne : Leaf := ⟨3, "fixed", .indep, false⟩
/-- A composed parameter. -/
def ratio : Par := .node ⟨4, "ratio", .composed, false⟩ [asPar mu, asPar sigma, asPar fixedOne]
def exLoss : LossO := ⟨[mu, sigma, fixedOne]⟩
def exRes : Res := ⟨exLoss, [(mu, 5), (sigma, 2)]⟩

/-- C167: a value given for a parameter is overwritten by that of the result: `minimize(loss, {mu: 1, sigma: None}, init=result)` starts at the `mu` of
the result. -/
theorem given_overwritten_violated :
    Regular (.loss exLoss) (.mapping [(asPar mu, some 1), (asPar sigma, none)]) (some exRes) ∧
    Given (.loss exLoss) (.mapping [(asPar mu, some 1), (asPar sigma, none)]) 10 mu 1 ∧
    (start (.loss exLoss) (.mapping [(asPar mu, some 1), (asPar sigma, none)]) (some exRes) 10 (fun _ => 0)).2 = .ok [mu, sigma] ∧
    (start (.loss exLoss) (.mapping [(asPar mu, some 1), (asPar sigma, none)]) (some exRes) 10 (fun _ => 0)).1 mu = 5 := by
  refine ⟨⟨?_, ?_, ?_, ?_, ?_⟩, ⟨asPar mu, by simp, rfl⟩, by rfl, by rfl⟩
  · intro n fresh
    show exLoss.params.Nodup
    decide
  · intro n fresh
    show ∀ x ∈ exLoss.params, x.kind = .indep
    decide
  · rintro l h
    cases h
    decide
  · rintro r h
    cases h
    decide
  · rintro r h
    cases h
    decide

/-! ## C173: the forms of start values -/

theorem start_position (l : LossO) (hn : l.params.Nodup) (hi : ∀ x ∈ l.params, x.kind = .indep) (hne : l.free ≠ []) {vs : List (Option ℚ)}
    (hl : vs.length = l.free.length) (ls : LArg) (hu : usedInit ls none = none) (hc : ∀ v', proceed v l none (.pars (l.free.map asPar))
      (((l.free.map asPar).zip vs).filterMap (fun p => p.2.map (fun q => (p.1, q)))) = (v', .ok (l, l.free, none)) →
      convertInput ls (.values vs) none fresh v = (v', .ok (l, l.free, none))) :
    ∃ v', start ls (.values vs) none fresh v = (v', .ok l.free) := by
  set ts := ((l.free.map asPar).zip vs).filterMap (fun p => p.2.map (fun q => (p.1, q))) with hts
  have hk : ∀ p ∈ ts, p.1.leaf.kind = .indep := by
    rintro ⟨p, q⟩ hp
    obtain ⟨i, hx, -⟩ := mem_position.1 (List.mem_map_of_mem (f := fun p => (p.1.leaf, p.2)) hp)
    exact hi _ (mem_free.1 (List.mem_of_getElem? hx)).1
  have h1 : ∀ m : List Leaf, (∀ x ∈ m, x.kind = .indep ∧ x.floating = true) → Par.indepsList (some true) (m.map asPar) = m := by
    intro m hm
    induction m with
    | nil => rfl
    | cons x m ih =>
      obtain ⟨hx, hf⟩ := hm x List.mem_cons_self
      rw [List.map_cons, Par.indepsList, ih (fun y hy => hm y (List.mem_cons_of_mem _ hy))]
      have : (asPar x).indeps (some true) = [x] := by
        simp [asPar, Par.indeps, hx, floatOk, hf]
      rw [this]
      rfl
  have h2 : ∀ m : List Leaf, m.Nodup → oset m = m := by
    have : ∀ (m acc : List Leaf), (acc ++ m).Nodup → m.foldl (fun acc x => if x ∈ acc then acc else acc ++ [x]) acc = acc ++ m := by
      intro m
      induction m with
      | nil => intro acc _; simp
      | cons x m ih =>
        intro acc h
        have hx : x ∉ acc := by
          intro hx
          exact (List.nodup_append.1 h).2.2 x hx x List.mem_cons_self rfl
        rw [List.foldl_cons, if_neg hx, ih (acc ++ [x]) (by simpa using h)]
        simp
    intro m hm
    exact this m [] hm
  have h3 : oset (Par.indepsList (some true) (l.free.map asPar)) = l.free := by
    rw [h1 l.free (fun x hx => ⟨hi x (mem_free.1 hx).1, (mem_free.1 hx).2⟩), h2 _ (nodup_filter_free hn)]
  have h4 : (l.free.map asPar).isEmpty = false := by
    rcases hl : l.free with _ | _
    · exact (hne hl).elim
    · rfl
  have h5 : l.free.isEmpty = false := by
    rcases hl : l.free with _ | _
    · exact (hne hl).elim
    · rfl
  have h6 : l.free.filter (·.floating) = l.free := by
    rw [List.filter_eq_self]
    intro x hx
    exact (mem_free.1 hx).2
  have hp : proceed v l none (.pars (l.free.map asPar)) ts = (assign v (ts.map (fun p => (p.1.leaf, p.2))), .ok (l, l.free, none)) := by
    unfold proceed
    simp only [choose, assignPars_indep hk, h3, h4, finish, h5, h6, Bool.false_eq_true, if_false]
  refine ⟨assign v (ts.map (fun p => (p.1.leaf, p.2))), ?_⟩
  unfold start
  rw [hc _ hp]

/-- C173 (part): a list of start values, one (or `None`) for each free parameter of the loss, is accepted, and for a function a list of numbers.
Missing from the full claim: the cases of `array_violated`. -/
theorem list_partial (fresh : Nat) (v : Vals) :
    (∀ l : LossO, l.params.Nodup → (∀ x ∈ l.params, x.kind = .indep) → l.free ≠ [] → ∀ vs : List (Option ℚ), vs.length = l.free.length →
      ∃ v', start (.loss l) (.values vs) none fresh v = (v', .ok l.free)) ∧
    (∀ vs : List ℚ, vs ≠ [] → ∃ v', start .func (.values (vs.map some)) none fresh v = (v', .ok ((List.range vs.length).map (fun i => freshLeaf (fresh + i))))) := by
  constructor
  · intro l hn hi hne vs hl
    refine start_position l hn hi hne hl (.loss l) rfl ?_
    intro v' h
    show (match byPosition l vs with
      | .error e => (v, Except.error e)
      | .ok s => proceed v l none s.1 s.2) = _
    unfold byPosition
    rw [if_neg (by simpa using hl)]
    exact h
  · intro vs hne
    have hfree : (⟨(List.range vs.length).map (fun i => freshLeaf (fresh + i))⟩ : LossO).free = (List.range vs.length).map (fun i => freshLeaf (fresh + i)) := by
      unfold LossO.free
      rw [List.filter_eq_self]
      intro x hx
      obtain ⟨i, -, rfl⟩ := List.mem_map.1 hx
      rfl
    have := start_position (v := v) (fresh := fresh) ⟨(List.range vs.length).map (fun i => freshLeaf (fresh + i))⟩ (freshLeaf_nodup _ _)
      (fun x hx => by obtain ⟨i, -, rfl⟩ := List.mem_map.1 hx; rfl) (by rw [hfree]; simpa using hne) (vs := vs.map some) (by rw [hfree]; simp) .func rfl ?_
    · rw [hfree] at this
      exact this
    · intro v' h
      have hm : makeLoss .func (.values (vs.map some)) fresh = .ok ⟨(List.range vs.length).map (fun i => freshLeaf (fresh + i))⟩ := by
        unfold makeLoss
        simp
      unfold convertInput
      simp only [unpackResult, unpackMapping, hm, resolve]
      unfold byPosition
      rw [if_neg (by rw [hfree]; simp)]
      exact h

/-- C173: an array of start values is refused for every loss and function, although it is documented: it cannot be put into a set. -/
theorem array_violated (l : LossO) (vs : List ℚ) (init : Option Res) (fresh : Nat) (v : Vals) :
    start (.loss l) (.array vs) init fresh v = (v, .error .typeError) ∧ start .func (.array vs) init fresh v = (v, .error .typeError) :=
  ⟨rfl, rfl⟩

example : start (.loss exLoss) (.objs [ratio]) none 10 (fun _ => 7) = (fun _ => 7, .ok [mu, sigma]) := by rfl
example : ∃ ps, start (.loss exLoss) (.objs [ratio]) none 10 (fun _ => 7) = (fun _ => 7, .ok ps) :=
  starts exLoss [ratio] (List.mem_singleton.2 rfl) (x := mu) (.dep (d := asPar mu) (by decide) (by simp) (.self rfl)) rfl 10 _
example : start (.loss exLoss) (.objs [asPar fixedOne]) none 10 (fun _ => 7) = (fun _ => 7, .error .runtimeError) :=
  refused _ _ (by simp) (by
    intro p hp x hx
    rw [List.mem_singleton] at hp
    subst hp
    rw [(reach_asPar.1 hx).1]
    rfl) 10 _
example : (start (.loss exLoss) (.values [some 3, none]) none 10 (fun _ => 7)).1 mu = 3 := by rfl
example : (start (.loss exLoss) (.values [some 3, none]) none 10 (fun _ => 7)).1 sigma = 7 := by rfl
example : (start .func (.values [some 3, some 4]) none 10 (fun _ => 7)).2 = .ok [freshLeaf 10, freshLeaf 11] := by rfl
example : (start (.result exRes) .none none 10 (fun _ => 7)).1 sigma = 2 := by rfl

/-! ## C168: parameters that the result does not have -/

theorem start_none_init (l : LossO) (r : Res) (hne : l.free ≠ []) (hi : ∀ x ∈ l.free, x.kind = .indep) (fresh : Nat) (v : Vals) :
    ∃ v1, start (.loss l) .none (some r) fresh v =
      match assignResult v1 l.free r with
      | .error e => (v1, .error e)
      | .ok v' => (v', .ok l.free) := by
  have hf : ∀ x ∈ fromInit l.free r [], x ∈ l.free := fun x hx => List.mem_of_mem_filter (List.mem_of_mem_filter hx)
  obtain ⟨v1, h1⟩ := assignResult_succeeds (ps := fromInit l.free r []) (r := r) v
    (fun x hx => by simpa using (List.mem_filter.1 (List.mem_of_mem_filter hx)).2) (fun x hx => hi x (hf x hx))
  have h6 : l.free.filter (·.floating) = l.free := by
    rw [List.filter_eq_self]
    intro x hx
    exact (mem_free.1 hx).2
  have h7 : l.free.isEmpty = false := by
    rcases hl : l.free with _ | _
    · exact (hne hl).elim
    · rfl
  have hfin : finish v (some r) [] l.free = (v1, .ok l.free) := by
    unfold finish
    simp only [h1, h6, h7]
    rfl
  have hconv : convertInput (.loss l) .none (some r) fresh v = (v1, .ok (l, l.free, some r)) := by
    show proceed v l (some r) .free [] = _
    unfold proceed
    simp only [choose, hfin]
  refine ⟨v1, ?_⟩
  unfold start
  rw [hconv]
  dsimp only
  rcases assignResult v1 l.free r with e | w <;> rfl

/-- C168 (part): a result that has all free parameters of the loss can be used to start from; it may have more, in any order. Missing from
the full claim: the cases of `init_other_violated`. -/
theorem init_superset_partial (l : LossO) (r : Res) (hne : l.free ≠ []) (hi : ∀ x ∈ l.free, x.kind = .indep)
    (hs : ∀ x ∈ l.free, x ∈ r.params.map (·.1)) (fresh : Nat) (v : Vals) :
    ∃ v', start (.loss l) .none (some r) fresh v = (v', .ok l.free) := by
  obtain ⟨v1, h⟩ := start_none_init l r hne hi fresh v
  obtain ⟨v', h'⟩ := assignResult_succeeds (ps := l.free) (r := r) v1 hs hi
  rw [h'] at h
  exact ⟨v', h⟩

/-- C168: a result that lacks one of the free parameters of the loss, for instance because it was fixed there, cannot be used to start from: a `ValueError` is
raised. -/
theorem init_other_violated (l : LossO) (r : Res) (hi : ∀ x ∈ l.free, x.kind = .indep) {x : Leaf} (hx : x ∈ l.free)
    (hr : x ∉ r.params.map (·.1)) (fresh : Nat) (v : Vals) : (start (.loss l) .none (some r) fresh v).2 = .error .valueError := by
  obtain ⟨v1, h⟩ := start_none_init l r (List.ne_nil_of_mem hx) hi fresh v
  rw [assignResult_missing v1 hx hr] at h
  rw [h]

example : (start (.loss exLoss) .none (some ⟨exLoss, [(mu, 5)]⟩) 10 (fun _ => 7)).2 = .error .valueError :=
  init_other_violated exLoss _ (by decide) (x := sigma) (by decide) (by decide) 10 _
example : ∃ v', start (.loss ⟨[sigma, fixedOne]⟩) .none (some exRes) 10 (fun _ => 7) = (v', .ok [sigma]) :=
  init_superset_partial ⟨[sigma, fixedOne]⟩ exRes (by decide) (by decide) (by decide) 10 _

/-! ## C172: a call that is refused -/

theorem proceed_error {l : LossO} {src : Source} {e : Err} (h : proceed v l none src [] = (v', .error e)) : v' = v := by
  unfold proceed at h
  split at h
  · rename_i v1 e' hc
    cases h
    unfold choose at hc
    cases src with
    | free => cases hc
    | pars lp => exact (congrArg Prod.fst hc).symm
    | numbers => exact (congrArg Prod.fst hc).symm
  · rename_i v1 ps hc
    have h1 : v1 = v := by
      rcases choose_ok hc with ⟨-, h, -⟩ | ⟨-, -, -, h, -⟩
      · exact h
      · exact (assignPars_ok h).1
    split at h
    · rename_i v2 e' hf
      cases h
      rw [← h1]
      exact (congrArg Prod.fst hf).symm
    · cases h

/-- C172 (part): if the call gives no values and no result to start from, an exception that is raised before the algorithm starts leaves all
values as they were. Missing from the full claim: the cases of `refused_changed_violated`, `refused_init_violated`. -/
theorem refused_unchanged_partial (hu : usedInit loss init = none) (hg : ∀ x q, ¬ Given loss params fresh x q)
    {e : Err} (h : start loss params init fresh v = (v', .error e)) : v' = v := by
  have hc : convertInput loss params init fresh v = (v', .error e) := by
    unfold start at h
    split at h
    · rename_i hc
      cases h
      exact hc
    · cases h
    · rename_i v1 l ps r hc
      exfalso
      have : ∀ z, convertInput loss params init fresh v = (v1, .ok z) → z.2.2 = none := by
        intro z hz
        unfold convertInput at hz
        dsimp only at hz
        rw [unpack_init, hu] at hz
        split at hz
        · cases hz
        · split at hz
          · cases hz
          · exact (proceed_ok hz).choose_spec.choose_spec.2.2
      cases this _ hc
  unfold convertInput at hc
  dsimp only at hc
  rw [unpack_init, hu] at hc
  split at hc
  · cases hc
    rfl
  · rename_i l hl
    split at hc
    · cases hc
      rfl
    · rename_i s hs
      have h0 : s.2 = [] := by
        cases params with
        | none =>
          cases loss with
          | loss l' => cases hs; rfl
          | result r => cases hu
          | func => cases hl
        | objs lp =>
          have hun : unpackMapping (unpackResult loss (.objs lp) init).1 (unpackResult loss (.objs lp) init).2.2 = (.objs lp, []) := by
            cases loss <;> rfl
          rw [hun] at hs
          rcases resolve_objs hs with ⟨-, hs⟩ | rfl
          · unfold byPosition at hs
            split at hs
            · cases hs
            · cases hs
              simp
          · rfl
        | values vs =>
          have hun : unpackMapping (unpackResult loss (.values vs) init).1 (unpackResult loss (.values vs) init).2.2 = (.values vs, []) := by
            cases loss <;> rfl
          rw [hun] at hs hl
          have hl' : l = lossOf loss vs.length fresh := by
            cases loss with
            | loss l' => exact (Except.ok.inj hl).symm
            | result r => cases hu
            | func =>
              unfold makeLoss at hl
              dsimp only at hl
              split at hl
              · exact (Except.ok.inj hl).symm
              · cases hl
          have hs : byPosition l vs = .ok s := hs
          unfold byPosition at hs
          split at hs
          · cases hs
          · cases hs
            rw [List.eq_nil_iff_forall_not_mem]
            rintro ⟨p, q⟩ hp
            obtain ⟨i, hi⟩ := mem_position.1 (List.mem_map_of_mem (f := fun p => (p.1.leaf, p.2)) hp)
            rw [hl'] at hi
            exact hg _ _ ⟨i, hi⟩
        | array vs =>
          cases loss with
          | loss l' => cases hs; rfl
          | result r => cases hu
          | func => cases hs; rfl
        | mapping lm =>
          have hun : unpackMapping (unpackResult loss (.mapping lm) init).1 (unpackResult loss (.mapping lm) init).2.2 =
              (.objs (lm.map (·.1)), lm.filterMap (fun p => p.2.map (fun q => (p.1, q)))) := by
            cases loss <;> rfl
          rw [hun] at hs
          have hz : lm.filterMap (fun p => p.2.map (fun q => (p.1, q))) = [] := by
            rw [List.filterMap_eq_nil_iff]
            rintro ⟨p, o⟩ hp
            cases o with
            | none => rfl
            | some q => exact (hg p.leaf q ⟨p, hp, rfl⟩).elim
          rw [hz] at hs
          rcases resolve_objs hs with ⟨-, hs⟩ | rfl
          · unfold byPosition at hs
            split at hs
            · cases hs
            · cases hs
              simp
          · rfl
      rw [h0] at hc
      exact proceed_error hc

/-- C172: `minimize(loss, {fixed: 3})` raises a `RuntimeError`, but the parameter has been set. -/
theorem refused_changed_violated :
    (start (.loss exLoss) (.mapping [(asPar fixedOne, some 3)]) none 10 (fun _ => 7)).2 = .error .runtimeError ∧
    (start (.loss exLoss) (.mapping [(asPar fixedOne, some 3)]) none 10 (fun _ => 7)).1 fixedOne = 3 := by
  refine ⟨by rfl, by rfl⟩

/-- C172: with a result that lacks a parameter, the others have been set when the `ValueError` is raised; with a result as the loss and an array of start values, these have
been set when an `AttributeError` is raised. -/
theorem refused_init_violated :
    (start (.loss exLoss) .none (some ⟨exLoss, [(mu, 5)]⟩) 10 (fun _ => 7)).2 = .error .valueError ∧
    (start (.loss exLoss) .none (some ⟨exLoss, [(mu, 5)]⟩) 10 (fun _ => 7)).1 mu = 5 ∧
    (start (.result exRes) (.array [1, 3]) none 10 (fun _ => 7)).2 = .error .attributeError ∧
    (start (.result exRes) (.array [1, 3]) none 10 (fun _ => 7)).1 mu = 1 := by
  refine ⟨by rfl, by rfl, by rfl, by rfl⟩

example : start (.loss exLoss) (.objs [asPar fixedOne]) none 10 (fun _ => 7) = (fun _ => 7, .error .runtimeError) := by rfl

end

end Zfit.Start
