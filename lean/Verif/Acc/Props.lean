import Verif.Acc.Model
import Verif.Common.Except
import Mathlib.Data.List.Nodup
import Mathlib.Tactic.Common

/-!
# Looking up values in results, and freezing results (C183-C186)
-/

namespace Zfit.Acc

open Zfit

variable {E V : Type}

/-! ## Specification: a result is a dictionary by name -/

/-- The entry of that name. -/
def byName {A : Type} (d : List (String × A)) (s : String) : Option A := (d.find? fun x => x.1 = s).map (·.2)

/-- What a look-up by parameter, name or position gives if the dictionary is one by name. -/
def lookup (d : List (String × E)) (it : Item) : Except Err E :=
  match it.label? with
  | none => .error .keyError
  | some s => (byName d s).elim (.error .keyError) .ok

/-- The entries by name after one use: only noting an error changes one, that of the name. -/
def noted (d : List (String × E)) : Op E V → List (String × E)
  | .note it f => d.map fun x => if it.label? = some x.1 then (x.1, f x.2) else x
  | _ => d

/-- The entries of a dictionary of a result, by name. -/
def named {A : Type} (d : List (Key × A)) : List (String × A) := d.map fun ke => (ke.1.label, ke.2)

/-! ## `result.params` -/

theorem paramsGet_eq (d : List (Key × E)) (it : Item) : paramsGet d it = lookup (named d) it := by
  unfold paramsGet lookup resolve
  cases hl : it.label? with
  | none =>
    cases it with
    | pos i => rfl
    | par p => cases hl
    | name s => cases hl
  | some s =>
    dsimp only
    induction d with
    | nil => rfl
    | cons ke d ih =>
      obtain ⟨k, e⟩ := ke
      by_cases hk : k.label = s
      · simp only [List.map_cons, List.find?_cons, hk, decide_true, named, byName]
        cases k <;> simp [Key.item, dictItem, dictGet]
      · simp only [List.map_cons, List.find?_cons, hk, decide_false, named, byName] at ih ⊢
        rw [← ih]
        cases hf : (d.map (·.1)).find? (fun k => k.label = s) with
        | none =>
          have : k ≠ .name s := by rintro rfl; exact hk rfl
          simp [dictItem, dictGet, this]
        | some k' =>
          have hk' : k'.label = s := by simpa using List.find?_some hf
          have : k ≠ k' := by rintro rfl; exact hk hk'
          cases k' with
          | par p => simp [Key.item, dictItem, dictGet, this]
          | name t => simp [Key.item, dictItem, dictGet, this]

theorem find_label {keys : List Key} (hn : (keys.map Key.label).Nodup) {k : Key} (hk : k ∈ keys) :
    keys.find? (fun k' => k'.label = k.label) = some k := by
  induction keys with
  | nil => cases hk
  | cons a keys ih =>
    simp only [List.map_cons, List.nodup_cons] at hn
    rcases List.mem_cons.1 hk with rfl | hm
    · simp
    · have : a.label ≠ k.label := fun h => hn.1 (h ▸ List.mem_map_of_mem hm)
      simp only [List.find?_cons, this, decide_false]
      exact ih hn.2 hm

theorem item_inj {a b : Key} (h : a.item = b.item) : a = b := by
  cases a <;> cases b <;> simp_all [Key.item]

theorem note_named (r : Result E V) (hn : ((r.params.map (·.1)).map Key.label).Nodup) (it : Item) (f : E → E) :
    named (r.note it f).1.params = noted (V := V) (named r.params) (.note it f) := by
  unfold Result.note
  have hg := paramsGet_eq r.params it
  cases hp : paramsGet r.params it with
  | error e =>
    dsimp only [noted]
    rw [hp] at hg
    have : ∀ x ∈ named r.params, it.label? ≠ some x.1 := by
      intro x hx hl
      unfold lookup at hg
      rw [hl] at hg
      dsimp only at hg
      have : ((named r.params).find? fun y => y.1 = x.1).isSome := by
        rw [List.find?_isSome]
        exact ⟨x, hx, by simp⟩
      obtain ⟨y, hy⟩ := Option.isSome_iff_exists.1 this
      simp [byName, hy] at hg
    symm
    calc (named r.params).map (fun x => if it.label? = some x.1 then (x.1, f x.2) else x)
        = (named r.params).map id := List.map_congr_left (fun x hx => if_neg (this x hx))
      _ = named r.params := List.map_id _
  | ok e0 =>
    dsimp only [noted, named]
    rw [List.map_map, List.map_map]
    refine List.map_congr_left fun ke hke => ?_
    have hmem : ke.1 ∈ r.params.map (·.1) := List.mem_map_of_mem hke
    have key : ke.1.item = resolve (r.params.map (·.1)) it ↔ it.label? = some ke.1.label := by
      unfold resolve
      cases hl : it.label? with
      | none =>
        have : ∃ i, it = .pos i := by cases it <;> simp [Item.label?] at hl ⊢
        obtain ⟨i, rfl⟩ := this
        cases ke.1 <;> simp [Key.item]
      | some s =>
        dsimp only
        constructor
        · intro h
          cases hf : (r.params.map (·.1)).find? (fun k => k.label = s) with
          | none =>
            rw [hf] at h
            dsimp only at h
            have : ke.1 = .name s := by cases hk : ke.1 <;> simp_all [Key.item]
            rw [this]; rfl
          | some k' =>
            rw [hf] at h
            have hk' : k'.label = s := by simpa using List.find?_some hf
            rw [item_inj h, hk']
        · intro h
          have : s = ke.1.label := by simpa using h
          subst this
          rw [find_label hn hmem]
    by_cases h : it.label? = some ke.1.label
    · simp [key.2 h, h]
    · have h' : ¬ ke.1.item = resolve (r.params.map (·.1)) it := fun h' => h (key.1 h')
      simp [h, h']

theorem cov_params (r : Result E V) (compute : String → Except Err (List ((Key × Key) × V))) (ask : Option (List Key)) (m : String) :
    (r.covariance compute ask m).1.params = r.params := by
  unfold Result.covariance
  dsimp only
  split
  · rfl
  · split
    · split <;> rfl
    · rfl

theorem freeze_named (r : Result E V) : named r.freeze.1.params = named r.params := by
  unfold Result.freeze
  dsimp only
  split
  · rfl
  · split
    · rfl
    · split
      · rfl
      · split
        · rfl
        · split
          · rfl
          · simp only [named, List.map_map]
            exact List.map_congr_left fun ke _ => rfl

theorem after_named (r : Result E V) (hn : ((named r.params).map (·.1)).Nodup) (op : Op E V) :
    named (r.after op).params = noted (named r.params) op := by
  cases op with
  | note it f => exact note_named r (by simpa [named, Function.comp_def] using hn) it f
  | covariance c a m => simp only [Result.after, cov_params]; rfl
  | freeze => simp only [Result.after, freeze_named]; rfl

theorem noted_names (d : List (String × E)) (op : Op E V) : (noted d op).map (·.1) = d.map (·.1) := by
  cases op with
  | note it f =>
    simp only [noted, List.map_map]
    refine List.map_congr_left fun x _ => ?_
    dsimp only [Function.comp]
    split <;> rfl
  | covariance c a m => rfl
  | freeze => rfl

theorem run_named (r : Result E V) (hn : ((named r.params).map (·.1)).Nodup) (ops : List (Op E V)) :
    named (r.run ops).params = ops.foldl noted (named r.params) := by
  induction ops generalizing r with
  | nil => rfl
  | cons op ops ih =>
    simp only [Result.run, List.foldl_cons] at ih ⊢
    rw [ih (r.after op) (by rw [after_named r hn, noted_names]; exact hn), after_named r hn]

/-- C183, proved.  Whatever was done with a result — errors noted, covariances calculated, frozen — a look-up in `params` by parameter or by
name gives the entry of that name, as if `params` were a dictionary by name; anything else is a `KeyError`, and `in` says whether
the entry exists. -/
theorem params_by_name (entry : V → E) (ps : List (Par × V)) (hn : (ps.map (·.1.name)).Nodup) (c : Attr) (g : Option (List V))
    (ops : List (Op E V)) (it : Item) :
    let d := ops.foldl noted (ps.map fun pv => (pv.1.name, entry pv.2))
    let r := (Result.make entry ps c g).run ops
    paramsGet r.params it = lookup d it
      ∧ contains (paramsGet r.params it) = .ok (it.label?.elim false fun s => (byName d s).isSome) := by
  have h : named ((Result.make entry ps c g).run ops).params = ops.foldl noted (ps.map fun pv => (pv.1.name, entry pv.2)) := by
    rw [run_named]
    · simp only [Result.make, named, List.map_map]; rfl
    · simpa [Result.make, named, Function.comp_def, Key.label] using hn
  dsimp only
  rw [paramsGet_eq, h]
  refine ⟨rfl, ?_⟩
  unfold lookup
  cases it.label? with
  | none => rfl
  | some s =>
    dsimp only [Option.elim]
    cases h' : byName (ops.foldl noted (ps.map fun pv => (pv.1.name, entry pv.2))) s <;> rfl

/-- Two parameters `mu` and `sigma`, with their entries, a covariance calculated, frozen and asked by parameter and name. -/
example :
    let mu : Par := ⟨0, "mu"⟩
    let sigma : Par := ⟨1, "sigma"⟩
    let r := (Result.make (E := List Int) (fun v => [v]) [(mu, 5), (sigma, 2)] .object none).run
      [.note (.par sigma) (· ++ [7]), .freeze, .note (.name "mu") (· ++ [9])]
    paramsGet r.params (.name "sigma") = .ok [2, 7] ∧ paramsGet r.params (.par mu) = .ok [5, 9]
      ∧ paramsGet r.params (.name "nu") = .error .keyError ∧ contains (paramsGet r.params (.name "nu")) = .ok false := by
  decide +kernel

/-! ## `result.values` -/

/-- No freezing in a history. -/
def Op.isFreeze : Op E V → Bool
  | .freeze => true
  | _ => false

/-- What stays as it is as long as a result is not frozen. -/
def Fresh (entry : V → E) (ps : List (Par × V)) (c : Attr) (g : Option (List V)) (r : Result E V) : Prop :=
  r.loss = .object ∧ r.minimizer = .object ∧ r.criterion = c ∧ r.approxParams = (Result.make entry ps c g).approxParams
    ∧ r.gradient = g ∧ r.values = (Result.make entry ps c g).values
    ∧ r.params.map (·.1) = (Result.make entry ps c g).params.map (·.1)

theorem fresh_make (entry : V → E) (ps : List (Par × V)) (c : Attr) (g : Option (List V)) :
    Fresh entry ps c g (Result.make entry ps c g) := ⟨rfl, rfl, rfl, rfl, rfl, rfl, rfl⟩

theorem fresh_after (entry : V → E) (ps : List (Par × V)) (c : Attr) (g : Option (List V)) (r : Result E V)
    (h : Fresh entry ps c g r) (op : Op E V) (ho : op.isFreeze = false) : Fresh entry ps c g (r.after op) := by
  cases op with
  | freeze => cases ho
  | note it f =>
    simp only [Result.after]
    unfold Result.note
    split
    · exact h
    · refine ⟨h.1, h.2.1, h.2.2.1, h.2.2.2.1, h.2.2.2.2.1, h.2.2.2.2.2.1, ?_⟩
      rw [← h.2.2.2.2.2.2]
      dsimp only
      rw [List.map_map]
      refine List.map_congr_left fun ke _ => ?_
      dsimp only [Function.comp]
      split <;> rfl
  | covariance compute ask m =>
    simp only [Result.after]
    unfold Result.covariance
    dsimp only
    split
    · exact h
    · split
      · split
        · exact h
        · exact h
      · exact h

theorem fresh_run (entry : V → E) (ps : List (Par × V)) (c : Attr) (g : Option (List V)) (r : Result E V)
    (h : Fresh entry ps c g r) (ops : List (Op E V)) (ho : ∀ op ∈ ops, op.isFreeze = false) : Fresh entry ps c g (r.run ops) := by
  induction ops generalizing r with
  | nil => exact h
  | cons op ops ih =>
    exact ih (r.after op) (fresh_after entry ps c g r h op (ho op (by simp))) fun o hm => ho o (by simp [hm])

theorem values_get_par (ps : List (Par × V)) (hn : (ps.map (·.1.name)).Nodup) (p : Par) (v : V) (hm : (p, v) ∈ ps) (it : Item)
    (hi : it.label? = some p.name) : (Values.of (ps.map fun pv => (Key.par pv.1, pv.2))).get it = .ok v := by
  have hk : ((ps.map fun pv => (Key.par pv.1, pv.2)).map (·.1)).find? (fun k => k.label = p.name) = some (.par p) := by
    have := find_label (keys := (ps.map fun pv => (Key.par pv.1, pv.2)).map (·.1)) (k := .par p)
      (by simpa [Function.comp_def, Key.label] using hn)
      (by simp only [List.map_map, List.mem_map]; exact ⟨(p, v), hm, rfl⟩)
    exact this
  unfold Values.get resolve
  simp only [hi, Values.of, hk, Key.item, Values.below]
  have : dictGet (ps.map fun pv => (Key.par pv.1, pv.2)) (.par p) = some v := by
    clear hk
    induction ps with
    | nil => cases hm
    | cons a ps ih =>
      simp only [List.map_cons, List.nodup_cons] at hn
      rcases List.mem_cons.1 hm with rfl | hm
      · simp [dictGet]
      · have : a.1 ≠ p := by
          rintro rfl
          exact hn.1 (List.mem_map.2 ⟨_, hm, rfl⟩)
        have := ih hn.2 hm
        simpa [dictGet, ‹a.1 ≠ p›] using this
  rw [this]
  rfl

theorem listGet_nat (l : List V) (i : ℕ) (v : V) (h : l[i]? = some v) : listGet l (i : ℤ) = .ok v := by
  unfold listGet pyGet
  rw [if_pos (by simp)]
  simp [h]

theorem listGet_neg (l : List V) (i : ℕ) (v : V) (h : l[i]? = some v) : listGet l ((i : ℤ) - l.length) = .ok v := by
  have hi : i < l.length := (List.getElem?_eq_some_iff.1 h).1
  unfold listGet pyGet
  rw [if_neg (by omega), if_pos (by omega)]
  have : ((l.length : ℤ) + ((i : ℤ) - l.length)).toNat = i := by omega
  rw [this, h]

theorem make_values_pos (entry : V → E) (ps : List (Par × V)) (c : Attr) (g : Option (List V)) (i : ℤ) :
    (Result.make entry ps c g).values.get (.pos i) = listGet (ps.map fun pv => pv.2) i := by
  unfold Values.get resolve
  simp only [Item.label?, Values.below, Result.make, Values.of, List.map_map, Function.comp_def]

/-- C184, in part.  As long as a result is not frozen, the value of each parameter is found by the parameter, by its name, by its position
and by its position from the end, and it is the fitted value; the parameters are in `values`.  Missing: frozen results
(`frozen_values_violated`), what is not in the result (`absent_violated`) and a later change of the dictionary the result was
made from (`shared_violated`). -/
theorem values_partial (entry : V → E) (ps : List (Par × V)) (hn : (ps.map (·.1.name)).Nodup) (c : Attr) (g : Option (List V))
    (ops : List (Op E V)) (ho : ∀ op ∈ ops, op.isFreeze = false) (i : ℕ) (p : Par) (v : V) (hi : ps[i]? = some (p, v)) :
    let r := (Result.make entry ps c g).run ops
    r.values.get (.par p) = .ok v ∧ r.values.get (.name p.name) = .ok v ∧ r.values.get (.pos i) = .ok v
      ∧ r.values.get (.pos ((i : ℤ) - ps.length)) = .ok v ∧ contains (r.values.get (.par p)) = .ok true := by
  have hf := fresh_run entry ps c g _ (fresh_make entry ps c g) ops ho
  dsimp only
  rw [hf.2.2.2.2.2.1]
  have hm : (p, v) ∈ ps := List.mem_of_getElem? hi
  have hd : (ps.map fun pv => pv.2)[i]? = some v := by simp [hi]
  have h1 := values_get_par ps hn p v hm (.par p) rfl
  refine ⟨h1, values_get_par ps hn p v hm (.name p.name) rfl, ?_, ?_, ?_⟩
  · rw [make_values_pos]
    exact listGet_nat _ i v hd
  · rw [make_values_pos]
    have := listGet_neg _ i v hd
    simpa using this
  · show contains ((Values.of _).get _) = _
    rw [h1]
    rfl

/-- Two parameters, and a covariance calculated before. -/
example :
    let mu : Par := ⟨0, "mu"⟩
    let sigma : Par := ⟨1, "sigma"⟩
    let r := (Result.make (E := List Int) (fun v => [v]) [(mu, 5), (sigma, 2)] .object none).run
      [.covariance (fun _ => .ok [((.par mu, .par mu), 1)]) none "hesse_np"]
    (r.values.get (.par sigma) = .ok 2 ∧ r.values.get (.name "sigma") = .ok 2 ∧ r.values.get (.pos 1) = .ok 2)
      ∧ r.values.get (.pos (-1)) = .ok 2 ∧ r.values.get (.pos 2) = .error .indexError := by
  decide +kernel

/-- C184 violated: after freezing, the values cannot be looked up by name (nor by parameter), although the documentation of `freeze` says that
parameters can be accessed by their name: the list below only looks up parameters in its dictionary
(/repo/zfit/minimizers/fitresult.py:1653-1656), and `in` raises a `RuntimeError`. -/
theorem frozen_values_violated :
    ∃ (ps : List (Par × ℤ)) (p : Par) (v : ℤ), (p, v) ∈ ps ∧ (ps.map (·.1.name)).Nodup ∧
      let r := (Result.make (E := Unit) (fun _ => ()) ps .object none).run [.freeze]
      r.values.get (.name p.name) = .error .typeError ∧ r.values.get (.par p) = .error .typeError
        ∧ contains (r.values.get (.name p.name)) = .error .runtimeError ∧ r.values.get (.pos 0) = .ok v := by
  refine ⟨[(⟨0, "mu"⟩, 5)], ⟨0, "mu"⟩, 5, ?_⟩
  decide +kernel

/-- C184 violated: asking whether a parameter that was not fitted is in the values raises a `RuntimeError` ("this should not happen") instead of
answering that it is not: the parameter is replaced by its name, and a list is asked for a name
(/repo/zfit/minimizers/fitresult.py:280-299). -/
theorem absent_violated :
    ∃ (ps : List (Par × ℤ)) (p : Par), p.name ∉ ps.map (·.1.name) ∧
      let r := Result.make (E := Unit) (fun _ => ()) ps .object none
      contains (r.values.get (.par p)) = .error .runtimeError ∧ r.values.get (.par p) = .error .typeError
        ∧ contains (paramsGet r.params (.par p)) = .ok false := by
  refine ⟨[(⟨0, "mu"⟩, 5)], ⟨1, "sigma"⟩, ?_⟩
  decide +kernel

/-- C184 violated: the values keep the dictionary the result was made from (/repo/zfit/minimizers/fitresult.py:1649-1651).  If it is changed
afterwards, the value by parameter changes and the value by position does not. -/
theorem shared_violated :
    ∃ (ps : List (Par × ℤ)) (p : Par) (v : ℤ),
      let r := Result.make (E := Unit) (fun _ => ()) ps .object none
      let changed : Values ℤ := { r.values with dict := dictSet r.values.dict (.par p) v }
      changed.get (.par p) = .ok v ∧ changed.get (.pos 0) = r.values.get (.par p) ∧ r.values.get (.par p) ≠ .ok v := by
  refine ⟨[(⟨0, "mu"⟩, 5)], ⟨0, "mu"⟩, 6, ?_⟩
  decide +kernel

end Zfit.Acc
