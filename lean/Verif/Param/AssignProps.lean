import Verif.Param.Assign
import Verif.Param.Lemmas
import Verif.Common.Except
import Mathlib.Data.List.Nodup

/-!
# Values reach the parameter they belong to (C14)
-/

namespace Zfit.Par

open Zfit

/-! ### specification -/

/-- The value a mapping holds for a parameter: under the parameter itself, else under its name. -/
def mapValue (m : List (Key × Rat)) (p : Ref) : Option Rat :=
  (dictGet m (.obj p.id)).or (dictGet m (.str p.name))

/-- The value a fit result holds for a parameter: that of the parameter of the same name. -/
def resultValue (m : List (Ref × Rat)) (p : Ref) : Option Rat :=
  dictGet (m.map (fun e => (e.1.name, e.2))) p.name

/-- The parameters that have a value, each with its value, in the order given. -/
def matched (value : Ref → Option Rat) (ps : List Ref) : List (Ref × Rat) :=
  ps.filterMap (fun p => (value p).map (fun v => (p, v)))

/-! ### lemmas -/

theorem resultGet_eq (m : List (Ref × Rat)) (p : Ref) : resultGet m p = resultValue m p := by
  unfold resultGet resultValue dictGet
  induction m with
  | nil => rfl
  | cons e m ih =>
    simp only [List.map_cons, List.find?_cons]
    by_cases h : e.1.name = p.name
    · simp [h]
    · simpa [h] using ih

theorem pickAll_eq {pick : Ref → Except Err (Option (Ref × Rat))} {value : Ref → Option Rat} {ap : Bool}
    (ps : List Ref) (hpick : ∀ p ∈ ps, pick p = match value p with
      | some v => .ok (some (p, v))
      | none => if ap then .ok none else .error .valueError) :
    pickAll pick ps = if ap = true ∨ (∀ p ∈ ps, value p ≠ none) then .ok (matched value ps) else .error .valueError := by
  induction ps with
  | nil => simp [pickAll, matched]
  | cons p ps ih =>
    have hp := hpick p List.mem_cons_self
    have ih := ih (fun q hq => hpick q (List.mem_cons_of_mem _ hq))
    unfold pickAll
    rw [hp, ih]
    rcases hv : value p with _ | v
    · cases ap
      · simp [hv, except_bind_error]
      · simp [matched, hv, except_bind_ok]
    · by_cases hall : ap = true ∨ ∀ q ∈ ps, value q ≠ none
      · have : ap = true ∨ ∀ q ∈ p :: ps, value q ≠ none := by
          rcases hall with h | h
          · exact Or.inl h
          · refine Or.inr fun q hq => ?_
            rcases List.mem_cons.1 hq with rfl | hq
            · rw [hv]; simp
            · exact h q hq
        rw [if_pos hall, if_pos this]
        simp [matched, hv, except_bind_ok]
      · have : ¬ (ap = true ∨ ∀ q ∈ p :: ps, value q ≠ none) := by
          intro h
          apply hall
          rcases h with h | h
          · exact Or.inl h
          · exact Or.inr fun q hq => h q (List.mem_cons_of_mem _ hq)
        rw [if_neg hall, if_neg this]
        rfl

theorem finalCheck_eq {pairs : List (Ref × Rat)} (h : ∀ e ∈ pairs, e.1.isParam = true) :
    finalCheck pairs = if ∀ e ∈ pairs, e.1.independent = true then .ok pairs else .error .parameterNotIndependent := by
  unfold finalCheck
  rw [if_pos (by simpa [List.all_eq_true] using h)]
  by_cases hi : ∀ e ∈ pairs, e.1.independent = true
  · rw [if_pos hi, if_pos (by simpa [List.all_eq_true] using hi)]
  · rw [if_neg hi, if_neg (by simpa [List.all_eq_true] using hi)]

theorem matched_fst {value : Ref → Option Rat} {ps : List Ref} {e : Ref × Rat} (h : e ∈ matched value ps) :
    e.1 ∈ ps ∧ value e.1 = some e.2 := by
  unfold matched at h
  rw [List.mem_filterMap] at h
  obtain ⟨p, hp, hv⟩ := h
  rw [Option.map_eq_some_iff] at hv
  obtain ⟨v, hv, rfl⟩ := hv
  exact ⟨hp, hv⟩

theorem mapPick_eq (m : List (Key × Rat)) (ap : Bool) (p : Ref) (hp : p.isParam = true) :
    mapPick m ap p = match mapValue m p with
      | some v => .ok (some (p, v))
      | none => if ap then .ok none else .error .valueError := by
  unfold mapPick mapValue Ref.key
  rw [if_pos hp, if_pos hp]
  rcases dictGet m (.obj p.id) with _ | v
  · rcases dictGet m (.str p.name) with _ | v <;> simp
  · rfl

theorem resultPick_eq (m : List (Ref × Rat)) (ap : Bool) (p : Ref) :
    resultPick m ap p = match resultValue m p with
      | some v => .ok (some (p, v))
      | none => if ap then .ok none else .error .valueError := by
  unfold resultPick
  rw [resultGet_eq]
  rcases resultValue m p with _ | v <;> rfl

/-! ### C14 -/

/-- C14, list of values: positions are paired; accepted exactly if the lengths agree and all parameters are
independent. -/
theorem values_by_position (ps : List Ref) (hne : ps ≠ []) (hpar : ∀ p ∈ ps, p.isParam = true) (vs : List Rat)
    (ap : Bool) :
    checkConvert (some ps) ap (.list vs) =
      if vs.length = ps.length then
        if ∀ p ∈ ps, p.independent = true then .ok (ps.zip vs) else .error .parameterNotIndependent
      else .error .valueError := by
  obtain ⟨p, rest, rfl⟩ := List.exists_cons_of_ne_nil hne
  unfold checkConvert
  simp only [pairUp, pairList]
  by_cases hl : vs.length = (p :: rest).length
  · rw [if_pos hl, if_pos hl, except_bind_ok, finalCheck_eq]
    · have : (∀ e ∈ (p :: rest).zip vs, e.1.independent = true) ↔ ∀ q ∈ p :: rest, q.independent = true := by
        have hm : ((p :: rest).zip vs).map (·.1) = p :: rest := List.map_fst_zip (by omega)
        constructor
        · intro h q hq
          rw [← hm] at hq
          obtain ⟨e, he, rfl⟩ := List.mem_map.1 hq
          exact h e he
        · intro h e he
          exact h e.1 (by rw [← hm]; exact List.mem_map_of_mem he)
      by_cases hi : ∀ q ∈ p :: rest, q.independent = true
      · rw [if_pos hi, if_pos (this.2 hi)]
      · rw [if_neg hi, if_neg (fun h => hi (this.1 h))]
    · intro e he
      exact hpar e.1 (List.of_mem_zip he).1
  · rw [if_neg hl, if_neg hl]
    rfl

/-- C14, mapping: each parameter takes the value under itself, else the one under its name; a parameter without value is
skipped with `allow_partial` and makes it a `ValueError` without; a dependent parameter that has a value is rejected. -/
theorem values_by_mapping (ps : List Ref) (hne : ps ≠ []) (hpar : ∀ p ∈ ps, p.isParam = true) (m : List (Key × Rat))
    (ap : Bool) :
    checkConvert (some ps) ap (.map m) =
      if ap = true ∨ (∀ p ∈ ps, mapValue m p ≠ none) then
        if ∀ e ∈ matched (mapValue m) ps, e.1.independent = true then .ok (matched (mapValue m) ps)
        else .error .parameterNotIndependent
      else .error .valueError := by
  obtain ⟨p, rest, rfl⟩ := List.exists_cons_of_ne_nil hne
  unfold checkConvert
  simp only [pairUp]
  rw [pickAll_eq (value := mapValue m) (ap := ap) _ (fun q hq => mapPick_eq m ap q (hpar q hq))]
  by_cases h : ap = true ∨ ∀ q ∈ p :: rest, mapValue m q ≠ none
  · rw [if_pos h, if_pos h, except_bind_ok, finalCheck_eq]
    intro e he
    exact hpar _ (matched_fst he).1
  · rw [if_neg h, if_neg h]
    rfl

/-- C14, fit result: each parameter takes the value of the result's parameter of the same name; the rest as for a
mapping. -/
theorem values_by_result (ps : List Ref) (hpar : ∀ p ∈ ps, p.isParam = true) (m : List (Ref × Rat)) (ap : Bool) :
    checkConvert (some ps) ap (.result m) =
      if ap = true ∨ (∀ p ∈ ps, resultValue m p ≠ none) then
        if ∀ e ∈ matched (resultValue m) ps, e.1.independent = true then .ok (matched (resultValue m) ps)
        else .error .parameterNotIndependent
      else .error .valueError := by
  have : checkConvert (some ps) ap (.result m) = (pairUp ps ap (.result m) >>= finalCheck) := by
    unfold checkConvert
    split <;> simp_all
  rw [this]
  simp only [pairUp]
  rw [pickAll_eq (value := resultValue m) (ap := ap) _ (fun q _ => resultPick_eq m ap q)]
  by_cases h : ap = true ∨ ∀ q ∈ ps, resultValue m q ≠ none
  · rw [if_pos h, if_pos h, except_bind_ok, finalCheck_eq]
    intro e he
    exact hpar _ (matched_fst he).1
  · rw [if_neg h, if_neg h]
    rfl

/-- C14: `set_values(result)` sets exactly the result's own values (the names of a result are distinct). -/
theorem values_from_result_alone (m : List (Ref × Rat)) (hpar : ∀ e ∈ m, e.1.isParam = true ∧ e.1.independent = true)
    (hn : (m.map (fun e => e.1.name)).Nodup) (ap : Bool) : checkConvert none ap (.result m) = .ok m := by
  have hval : ∀ e ∈ m, resultValue m e.1 = some e.2 := by
    intro e he
    unfold resultValue dictGet
    induction m with
    | nil => cases he
    | cons a m ih =>
      simp only [List.map_cons, List.nodup_cons] at hn
      rcases List.mem_cons.1 he with rfl | he'
      · simp
      · have hne : a.1.name ≠ e.1.name := by
          intro h
          exact hn.1 (h ▸ List.mem_map_of_mem (f := fun e : Ref × Rat => e.1.name) he')
        simp only [List.map_cons, List.find?_cons, hne, decide_false]
        exact ih (fun e he => hpar e (List.mem_cons_of_mem _ he)) hn.2 he'
  have hmatch : matched (resultValue m) (m.map (·.1)) = m := by
    unfold matched
    rw [List.filterMap_map]
    have : ∀ e ∈ m, ((fun p => (resultValue m p).map fun v => (p, v)) ∘ fun x => x.1) e = some e := by
      intro e he
      simp [hval e he]
    rw [List.filterMap_congr this]
    simp
  unfold checkConvert
  simp only
  rw [pickAll_eq (value := resultValue m) (ap := ap) _ (fun q _ => resultPick_eq m ap q), if_pos, except_bind_ok,
    hmatch, finalCheck_eq (fun e he => (hpar e he).1), if_pos (fun e he => (hpar e he).2)]
  right
  intro p hp
  obtain ⟨e, he, rfl⟩ := List.mem_map.1 hp
  rw [hval e he]
  simp

/-- C14: a mapping of parameters given alone pairs its keys with its values; dependent ones are rejected. -/
theorem values_from_mapping_alone (m : List (Ref × Rat)) (hpar : ∀ e ∈ m, e.1.isParam = true) :
    checkConvertMapping m =
      if ∀ e ∈ m, e.1.independent = true then .ok m else .error .parameterNotIndependent := by
  unfold checkConvertMapping pairList
  rw [if_pos (by simp), except_bind_ok]
  have : (m.map (·.1)).zip (m.map (·.2)) = m := by
    induction m with
    | nil => rfl
    | cons a m ih => simp [ih (fun e he => hpar e (List.mem_cons_of_mem _ he))]
  rw [this, finalCheck_eq hpar]

theorem pickAll_error {pick : Ref → Except Err (Option (Ref × Rat))} {ps : List Ref} {p : Ref} (hp : p ∈ ps)
    {e : Err} (h : pick p = .error e) : ∃ e', pickAll pick ps = .error e' := by
  induction ps with
  | nil => cases hp
  | cons q ps ih =>
    unfold pickAll
    rcases List.mem_cons.1 hp with rfl | hp
    · rw [h]; exact ⟨e, rfl⟩
    · cases hq : pick q with
      | error e' => exact ⟨e', rfl⟩
      | ok r =>
        obtain ⟨e', he⟩ := ih hp
        rw [he]
        exact ⟨e', rfl⟩

/-- C14: an object that is no parameter is never passed over: with a mapping of values the call is refused, whether or
not the object is a key of the mapping and whether or not partial matches are allowed, and no parameter changes. -/
theorem non_parameter_refused (s : Store) (ps : List Ref) (p : Ref) (hp : p ∈ ps) (hpar : p.isParam = false)
    (m : List (Key × Rat)) (ap : Bool) :
    ∃ e, checkConvert (some ps) ap (.map m) = .error e ∧ setValues s (some ps) ap (.map m) = (s, some e) := by
  have key : ∃ e, checkConvert (some ps) ap (.map m) = .error e := by
    obtain ⟨q, rest, rfl⟩ := List.exists_cons_of_ne_nil (List.ne_nil_of_mem hp)
    unfold checkConvert
    simp only [pairUp]
    cases hd : dictGet m p.key with
    | none =>
      have : mapPick m ap p = .error .attributeError := by
        unfold mapPick; rw [hd]; simp [hpar]
      obtain ⟨e, he⟩ := pickAll_error hp this
      rw [he]; exact ⟨e, rfl⟩
    | some v =>
      have hpick : mapPick m ap p = .ok (some (p, v)) := by unfold mapPick; rw [hd]
      cases hall : pickAll (mapPick m ap) (q :: rest) with
      | error e => exact ⟨e, rfl⟩
      | ok pairs =>
        rw [except_bind_ok]
        unfold finalCheck
        rw [if_neg]
        · exact ⟨_, rfl⟩
        · rw [List.all_eq_true]
          intro h
          have hmem : (p, v) ∈ pairs := by
            clear h hd
            generalize q :: rest = l at hp hall
            induction l generalizing pairs with
            | nil => cases hp
            | cons b l ih =>
              unfold pickAll at hall
              simp only [bind_eq_ok, except_pure, Except.ok.injEq] at hall
              obtain ⟨r, hr, rs, hrs, rfl⟩ := hall
              rcases List.mem_cons.1 hp with rfl | hp
              · rw [hpick] at hr; cases hr; simp
              · exact List.mem_append_right _ (ih _ hp hrs)
          have := h _ hmem
          rw [hpar] at this
          cases this
  obtain ⟨e, he⟩ := key
  refine ⟨e, he, ?_⟩
  unfold setValues
  rw [he]

example : checkConvert (some [⟨0, "mu", true, true⟩, ⟨1, "sigma", false, true⟩]) true (.map [(.obj 0, 4)]) =
    .error .attributeError := by decide +kernel

/-- C14: something among the matched that is no parameter, or a dependent parameter, is never assigned; whatever the
inputs, a rejection at this stage changes no parameter. -/
theorem rejected_before_any_change (s : Store) (params : Option (List Ref)) (ap : Bool) (values : Vals) :
    (∀ pairs, checkConvert params ap values = .ok pairs → ∀ e ∈ pairs, e.1.isParam = true ∧ e.1.independent = true) ∧
    (∀ e, checkConvert params ap values = .error e →
      setValues s params ap values = (s, some e) ∧ assignValues s params ap values = (s, some e)) := by
  constructor
  · have hf : ∀ {x pairs}, finalCheck x = .ok pairs → ∀ e ∈ pairs, e.1.isParam = true ∧ e.1.independent = true := by
      intro x pairs h
      unfold finalCheck at h
      split at h
      · split at h
        · rename_i h1 h2
          cases h
          rw [List.all_eq_true] at h1 h2
          exact fun e he => ⟨h1 e he, h2 e he⟩
        · cases h
      · cases h
    intro pairs h
    unfold checkConvert at h
    split at h
    · obtain ⟨x, _, h⟩ := bind_eq_ok.1 h
      exact hf h
    · cases h
    · cases h
      intro e he
      cases he
    · cases h
      intro e he
      cases he
    · obtain ⟨x, _, h⟩ := bind_eq_ok.1 h
      exact hf h
  · intro e he
    unfold setValues assignValues
    rw [he]
    exact ⟨rfl, rfl⟩

/-- C14: what `assign_values` does with accepted pairs of distinct parameters: each one's value is its number clipped to
the limits, all others are untouched. -/
theorem assign_values_effect (s : Store) (hp : ProperStore s) (params : Option (List Ref)) (ap : Bool) (values : Vals)
    (pairs : List (Ref × Rat)) (h : checkConvert params ap values = .ok pairs)
    (hn : (pairs.map (fun e => e.1.id)).Nodup) :
    (assignValues s params ap values).2 = none ∧
    (∀ e ∈ pairs, Clipped (s e.1.id).lower (s e.1.id).upper e.2 (((assignValues s params ap values).1 e.1.id).value)) ∧
    (∀ j, j ∉ pairs.map (fun e => e.1.id) → (assignValues s params ap values).1 j = s j) := by
  unfold assignValues
  rw [h]
  refine ⟨rfl, ?_, ?_⟩
  · intro e he
    simp only
    rw [assignAll_const (v := e.2)]
    · rw [assign_value]
      exact clip_clipped (hp _) _
    · rw [List.map_map]
      exact List.mem_map_of_mem (f := fun e : Ref × Rat => e.1.id) he
    · intro iv hiv hid
      obtain ⟨e', he', rfl⟩ := List.mem_map.1 hiv
      simp only at hid ⊢
      have := List.inj_on_of_nodup_map hn he' he hid
      rw [this]
  · intro j hj
    simp only
    apply assignAll_untouched
    rw [List.map_map]
    exact hj

/-- Cases: a mapping with an object key and a name key, the object winning over the name; a missing parameter with and
without `allow_partial`; a dependent parameter. -/
example :
    let a : Ref := ⟨0, "a", true, true⟩
    let b : Ref := ⟨1, "b", true, true⟩
    let c : Ref := ⟨2, "c", true, false⟩
    checkConvert (some [b, a]) false (.map [(.str "a", 1), (.str "b", 2), (.obj 0, 3)]) = .ok [(b, 2), (a, 3)] ∧
    checkConvert (some [b, a]) false (.map [(.str "a", 1)]) = .error .valueError ∧
    checkConvert (some [b, a]) true (.map [(.str "a", 1)]) = .ok [(a, 1)] ∧
    checkConvert (some [a, c]) true (.map [(.str "a", 1), (.obj 2, 5)]) = .error .parameterNotIndependent ∧
    checkConvert (some [b, a]) false (.result [(a, 1), (b, 2)]) = .ok [(b, 2), (a, 1)] ∧
    checkConvert (some [b, a]) false (.list [1]) = .error .valueError := by decide +kernel

/-- A quirk: a fit result is matched by name, so that it sets a *different* parameter object of the same name. -/
theorem result_matches_other_object_violated :
    checkConvert (some [⟨7, "mu", true, true⟩]) false (.result [(⟨0, "mu", true, true⟩, 4)]) =
      .ok [(⟨7, "mu", true, true⟩, 4)] := by decide +kernel

/-- A quirk: with no parameters at all, any list of values is accepted, whatever its length. -/
theorem empty_params_accept_anything_violated (vs : List Rat) (ap : Bool) :
    checkConvert (some []) ap (.list vs) = .ok [] := rfl

end Zfit.Par
