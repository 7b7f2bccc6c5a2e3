import Verif.Io.SerialModel

/-! Properties of saving and loading (C64). -/

namespace Zfit.Io

open Zfit

/-- The object stands for a parameter: it has a name and is a constant (by its type, not floating), a composed parameter (by its type, with
a function) or a parameter (with limits and a step size). -/
def isParam : J → Bool
  | .obj fields =>
    let has (k : String) : Bool := (get? k fields).isSome
    let ofType (t : String) : Bool := match get? "type" fields with
      | some (.str s) => t == s
      | _ => false
    let fixed : Bool := match get? "floating" fields with
      | some (.bool b) => !b
      | _ => false
    has "name" && ((ofType "ConstantParameter" && fixed) || (ofType "ComposedParameter" && has "func")
      || (has "min" && has "max" && has "stepsize"))
  | _ => false

theorem isParam_eq (v : J) :
    isParam v = (matchPattern constPattern v || matchPattern composedPattern v || matchPattern paramPattern v) := by
  cases v with
  | obj fields =>
    have hany : ∀ k, ((get? k fields).map Want.any.fits).getD false = (get? k fields).isSome := by
      intro k; cases get? k fields <;> rfl
    have htype : ∀ t, ((get? "type" fields).map (Want.str t).fits).getD false
        = (match get? "type" fields with | some (.str s) => t == s | _ => false) := by
      intro t
      rcases get? "type" fields with _ | v
      · rfl
      · cases v <;> rfl
    have hfix : ((get? "floating" fields).map Want.isFalse.fits).getD false
        = (match get? "floating" fields with | some (.bool b) => !b | _ => false) := by
      rcases get? "floating" fields with _ | v
      · rfl
      · cases v <;> rfl
    simp only [isParam, matchPattern, constPattern, composedPattern, paramPattern, List.all_cons, List.all_nil, hany, htype, hfix]
    cases (get? "name" fields).isSome <;> simp [Bool.and_assoc]
  | _ => rfl

mutual
/-- What the property needs of a document: every object that stands for a parameter has a name and is the variable of that
name; no other string is the name of a variable; the `type` of any other object is a string. -/
def Admissible (vars : Fields) : J → Prop
  | .obj fields =>
    (isParam (.obj fields) = true ∧ ∃ n, get? "name" fields = some (.str n) ∧ get? n vars = some (.obj fields)) ∨
    (isParam (.obj fields) = false ∧ (∀ v, get? "type" fields = some v → ∃ s, v = .str s) ∧ AdmissibleFields vars fields)
  | .arr l => AdmissibleList vars l
  | .str s => get? s vars = none
  | .null => True
  | .bool _ => True
  | .num _ => True
def AdmissibleFields (vars : Fields) : List (String × J) → Prop
  | [] => True
  | (_, v) :: rest => Admissible vars v ∧ AdmissibleFields vars rest
def AdmissibleList (vars : Fields) : List J → Prop
  | [] => True
  | v :: rest => Admissible vars v ∧ AdmissibleList vars rest
end

/-! ### replacing keeps the keys, strings and booleans -/

theorem get?_replace (f : J → Option J) (k : String) (fields : Fields) :
    get? k (replaceFields f fields) = (get? k fields).map (replace f) := by
  induction fields with
  | nil => simp [replaceFields, get?]
  | cons p rest ih =>
    obtain ⟨k', v⟩ := p
    simp only [replaceFields, get?]
    split
    · rfl
    · exact ih

theorem replace_str (p : List (String × Want)) (s : String) : replace (byName p) (.str s) = .str s := by
  simp [replace, byName]

theorem match_param_replace (p : List (String × Want)) (fields : Fields) :
    matchPattern paramPattern (.obj (replaceFields (byName p) fields)) = matchPattern paramPattern (.obj fields) := by
  have h : ∀ k, ((get? k (replaceFields (byName p) fields)).map Want.any.fits).getD false
      = ((get? k fields).map Want.any.fits).getD false := by
    intro k
    rw [get?_replace]
    cases get? k fields <;> rfl
  simp only [matchPattern, paramPattern, List.all_cons, List.all_nil, h]

theorem match_composed_replace (p : List (String × Want)) (fields : Fields)
    (hty : ∀ v, get? "type" fields = some v → ∃ s, v = .str s) :
    matchPattern composedPattern (.obj (replaceFields (byName p) fields)) = matchPattern composedPattern (.obj fields) := by
  have h : ∀ k, ((get? k (replaceFields (byName p) fields)).map Want.any.fits).getD false
      = ((get? k fields).map Want.any.fits).getD false := by
    intro k
    rw [get?_replace]
    cases get? k fields <;> rfl
  have ht : ∀ t, ((get? "type" (replaceFields (byName p) fields)).map (Want.str t).fits).getD false
      = ((get? "type" fields).map (Want.str t).fits).getD false := by
    intro t
    rw [get?_replace]
    cases hg : get? "type" fields with
    | none => rfl
    | some v =>
      obtain ⟨s, rfl⟩ := hty v hg
      simp [replace_str]
  simp only [matchPattern, composedPattern, List.all_cons, List.all_nil, h, ht]

theorem composed_type (fields : Fields) (h : matchPattern composedPattern (.obj fields) = true) :
    ∀ v, get? "type" fields = some v → ∃ s, v = .str s := by
  intro v hv
  simp only [matchPattern, composedPattern, List.all_cons, List.all_nil, hv, Bool.and_eq_true, Option.map_some,
    Option.getD_some] at h
  cases v with
  | str s => exact ⟨s, rfl⟩
  | _ => simp [Want.fits] at h

theorem replace_obj (p : List (String × Want)) (fields : Fields) (n : String) (hn : get? "name" fields = some (.str n)) :
    replace (byName p) (.obj fields)
      = if matchPattern p (.obj fields) = true then .str n else .obj (replaceFields (byName p) fields) := by
  rw [replace]
  unfold byName
  by_cases h : matchPattern p (.obj fields) = true
  · simp [h, hn]
  · simp only [h, Bool.false_eq_true, if_false]

theorem replace_obj_none (p : List (String × Want)) (fields : Fields) (h : matchPattern p (.obj fields) = false) :
    replace (byName p) (.obj fields) = .obj (replaceFields (byName p) fields) := by
  rw [replace]
  have : byName p (.obj fields) = none := by simp [byName, h]
  rw [this]

/-- An object that stands for a parameter becomes its name. -/
theorem forward_param (fields : Fields) (n : String) (hn : get? "name" fields = some (.str n))
    (h : isParam (.obj fields) = true) : forward (.obj fields) = .str n := by
  unfold forward
  have name : ∀ (p : List (String × Want)) (fs : Fields), get? "name" fs = some (.str n) →
      get? "name" (replaceFields (byName p) fs) = some (.str n) := by
    intro p fs hfs
    rw [get?_replace, hfs, Option.map_some, replace_str]
  rw [replace_obj constPattern fields n hn]
  by_cases h1 : matchPattern constPattern (.obj fields) = true
  · rw [if_pos h1, replace_str, replace_str]
  · rw [if_neg h1]
    have hn1 := name constPattern fields hn
    rw [replace_obj composedPattern _ n hn1]
    by_cases h2 : matchPattern composedPattern (.obj (replaceFields (byName constPattern) fields)) = true
    · rw [if_pos h2, replace_str]
    · rw [if_neg h2, replace_obj paramPattern _ n (name composedPattern _ hn1), match_param_replace, match_param_replace]
      by_cases h3 : matchPattern paramPattern (.obj fields) = true
      · rw [if_pos h3]
      · exfalso
        simp only [isParam_eq, Bool.or_eq_true, h1, h3, or_false, Bool.false_eq_true, false_or] at h
        rw [match_composed_replace _ _ (composed_type fields h)] at h2
        exact h2 h

mutual
theorem backward_forward (vars : Fields) (v : J) (h : Admissible vars v) : backward vars (forward v) = v := by
  cases v with
  | null => simp [backward, forward, replace, byName, lookup]
  | bool b => simp [backward, forward, replace, byName, lookup]
  | num q => simp [backward, forward, replace, byName, lookup]
  | str s =>
    unfold Admissible at h
    simp [backward, forward, replace, byName, lookup, h]
  | arr l =>
    unfold Admissible at h
    have := backward_forward_list vars l h
    simp only [backward, forward, replace, byName, lookup]
    rw [this]
  | obj fields =>
    unfold Admissible at h
    rcases h with ⟨hp, n, hn, hv⟩ | ⟨hp, hty, hf⟩
    · rw [forward_param fields n hn hp]
      simp [backward, replace, lookup, hv]
    · simp only [isParam_eq, Bool.or_eq_false_iff] at hp
      have ht1 : ∀ v, get? "type" (replaceFields (byName constPattern) fields) = some v → ∃ s, v = .str s := by
        intro v hv
        rw [get?_replace] at hv
        cases hg : get? "type" fields with
        | none => rw [hg] at hv; cases hv
        | some w =>
          obtain ⟨s, rfl⟩ := hty w hg
          rw [hg, Option.map_some, replace_str] at hv
          cases hv
          exact ⟨s, rfl⟩
      have e : forward (.obj fields)
          = .obj (replaceFields (byName paramPattern) (replaceFields (byName composedPattern)
              (replaceFields (byName constPattern) fields))) := by
        unfold forward
        rw [replace_obj_none _ _ hp.1.1, replace_obj_none _ _ (by rw [match_composed_replace _ _ hty]; exact hp.1.2),
          replace_obj_none _ _ (by rw [match_param_replace, match_param_replace]; exact hp.2)]
      rw [e]
      have := backward_forward_fields vars fields hf
      simp only [backward, replace, lookup]
      rw [this]
theorem backward_forward_fields (vars : Fields) (fields : List (String × J)) (h : AdmissibleFields vars fields) :
    replaceFields (lookup vars) (replaceFields (byName paramPattern) (replaceFields (byName composedPattern)
      (replaceFields (byName constPattern) fields))) = fields := by
  cases fields with
  | nil => simp [replaceFields]
  | cons p rest =>
    obtain ⟨k, v⟩ := p
    unfold AdmissibleFields at h
    have h1 := backward_forward vars v h.1
    have h2 := backward_forward_fields vars rest h.2
    simp only [replaceFields]
    rw [h2]
    simp only [backward, forward] at h1
    rw [h1]
theorem backward_forward_list (vars : Fields) (l : List J) (h : AdmissibleList vars l) :
    replaceList (lookup vars) (replaceList (byName paramPattern) (replaceList (byName composedPattern)
      (replaceList (byName constPattern) l))) = l := by
  cases l with
  | nil => simp [replaceList]
  | cons v rest =>
    unfold AdmissibleList at h
    have h1 := backward_forward vars v h.1
    have h2 := backward_forward_list vars rest h.2
    simp only [replaceList]
    rw [h2]
    simp only [backward, forward] at h1
    rw [h1]
end

/-! ### the variables -/

/-- The variables as loading expects them: the type last, and the one loading deduces. -/
def TypedVars (vars : Fields) : Prop := ∀ p ∈ vars, addType (delType p.2) = some p.2

theorem loadVars_saveVars (vars : Fields) (h : TypedVars vars) : loadVars (saveVars vars) = vars := by
  induction vars with
  | nil => rfl
  | cons p rest ih =>
    obtain ⟨k, v⟩ := p
    have hp := h (k, v) List.mem_cons_self
    have := ih (fun q hq => h q (List.mem_cons_of_mem _ hq))
    simp only [saveVars, List.map_cons, loadVars] at this ⊢
    simp only at hp
    rw [hp]
    simp only
    rw [this]

/-- C64, what holds: for every nested structure, saving (objects that stand for parameters become their names) and loading
(names become parameters again) gives the structure back, provided that the variables have the type that loading deduces and
that no other string of the document is the name of a variable. Missing from the full claim: the cases of `hs3_name_collision_violated`,
`hs3_fixed_violated`. -/
theorem hs3_round_trip_partial (vars : Fields) (doc : J) (hv : TypedVars vars) (hd : Admissible vars doc) :
    roundTrip vars doc = doc := by
  unfold roundTrip
  rw [loadVars_saveVars vars hv]
  exact backward_forward vars doc hd

/-! ### a document -/

/-- A parameter, as an object. -/
def exParam (name : String) (value : Rat) : J :=
  .obj [("name", .str name), ("value", .num value), ("min", .num 0), ("max", .num 10), ("stepsize", .num 1),
    ("floating", .bool true), ("type", .str "Parameter")]

def exConst (name : String) (value : Rat) : J :=
  .obj [("name", .str name), ("value", .num value), ("floating", .bool false), ("type", .str "ConstantParameter")]

/-- A Gauss in the observable `obs` with mean `mu` and constant width `sigma`, in a list. -/
def exDoc (obs : String) : J :=
  .obj [("gauss", .obj [("type", .str "Gauss"), ("x", .obj [("name", .str obs), ("min", .num 0), ("max", .num 5)]),
    ("mu", exParam "mu" 1), ("params", .arr [exConst "sigma" 2, exParam "mu" 1])])]

def exVars : Fields := [("mu", exParam "mu" 1), ("sigma", exConst "sigma" 2)]

/-- The hypotheses are met by this document. -/
example : TypedVars exVars ∧ Admissible exVars (exDoc "x") := by
  constructor
  · intro p hp
    simp only [exVars, List.mem_cons, List.not_mem_nil, or_false] at hp
    rcases hp with rfl | rfl <;> rfl
  · simp [exDoc, exVars, exParam, exConst, Admissible, AdmissibleFields, AdmissibleList, isParam, matchPattern, constPattern,
      composedPattern, paramPattern, get?, Want.fits]

/-- The saved form has names only. -/
example : forward (exDoc "x") = .obj [("gauss", .obj [("type", .str "Gauss"),
    ("x", .obj [("name", .str "x"), ("min", .num 0), ("max", .num 5)]), ("mu", .str "mu"),
    ("params", .arr [.str "sigma", .str "mu"])])] := by rfl

/-- C64 fails when an observable has the name of a parameter: the name of the space is replaced by the parameter. -/
theorem hs3_name_collision_violated :
    roundTrip exVars (exDoc "mu") ≠ exDoc "mu" ∧
    roundTrip exVars (exDoc "mu") = .obj [("gauss", .obj [("type", .str "Gauss"),
      ("x", .obj [("name", exParam "mu" 1), ("min", .num 0), ("max", .num 5)]),
      ("mu", exParam "mu" 1), ("params", .arr [exConst "sigma" 2, exParam "mu" 1])])] := by
  have h : roundTrip exVars (exDoc "mu") = .obj [("gauss", .obj [("type", .str "Gauss"),
      ("x", .obj [("name", exParam "mu" 1), ("min", .num 0), ("max", .num 5)]),
      ("mu", exParam "mu" 1), ("params", .arr [exConst "sigma" 2, exParam "mu" 1])])] := by rfl
  refine ⟨?_, h⟩
  rw [h]
  simp [exDoc, exParam]

/-- A parameter that does not float. -/
def exFixed : J :=
  .obj [("name", .str "mu"), ("value", .num 1), ("min", .num 0), ("max", .num 10), ("stepsize", .num 1),
    ("floating", .bool false), ("type", .str "Parameter")]

/-- C64 fails for a parameter that is fixed (`floating=False`): it is loaded as a constant, which can never float again. -/
theorem hs3_fixed_violated :
    roundTrip [("mu", exFixed)] exFixed = .obj [("name", .str "mu"), ("value", .num 1), ("min", .num 0), ("max", .num 10),
      ("stepsize", .num 1), ("floating", .bool false), ("type", .str "ConstantParameter")] := by rfl

end Zfit.Io
