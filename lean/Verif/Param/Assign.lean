import Verif.Param.Model

/-!
# Model of how values are matched with parameters

/repo/zfit/core/parameter.py:1553-1637 (`check_convert_param_values_assign`), used by `set_values` and `assign_values`.
Objects that are not parameters are modelled by `isParam = false`; they have no attribute `name` (strings, numbers), the
field `name` then is the string itself.
-/

namespace Zfit.Par

open Zfit

/-- What is given as a parameter. -/
structure Ref where
  id : Nat
  name : String
  isParam : Bool
  independent : Bool
  deriving DecidableEq, Repr

/-- A key of a mapping of values: a parameter object or a string. -/
inductive Key
  | obj (id : Nat)
  | str (name : String)
  deriving DecidableEq, Repr

/-- What is given as values.  `result`: the parameters of the fit result with their values. -/
inductive Vals
  | list (vs : List Rat)
  | map (m : List (Key × Rat))
  | result (m : List (Ref × Rat))
  deriving DecidableEq, Repr

/-- `param in result.params` and `result.params[param]`: by name (minimizers/fitresult.py:277-299, `NameToParamGetitem`). -/
def resultGet (m : List (Ref × Rat)) (p : Ref) : Option Rat :=
  (m.find? (fun e => e.1.name = p.name)).map (·.2)

/-- One parameter of the loop over a result (parameter.py:1585-1594): `none` if it is skipped. -/
def resultPick (m : List (Ref × Rat)) (allowPartial : Bool) (p : Ref) : Except Err (Option (Ref × Rat)) :=
  match resultGet m p with
  | some v => .ok (some (p, v))
  | none => if allowPartial then .ok none else .error .valueError

/-- The key under which an object is looked up first: itself. -/
def Ref.key (p : Ref) : Key := if p.isParam then .obj p.id else .str p.name

/-- One parameter of the loop over a mapping (parameter.py:1599-1611). -/
def mapPick (m : List (Key × Rat)) (allowPartial : Bool) (p : Ref) : Except Err (Option (Ref × Rat)) :=
  match dictGet m p.key with
  | some v => .ok (some (p, v))
  | none =>
    if p.isParam then
      match dictGet m (.str p.name) with
      | some v => .ok (some (p, v))
      | none => if allowPartial then .ok none else .error .valueError
    else .error .attributeError

/-- The loop collecting pairs. -/
def pickAll (pick : Ref → Except Err (Option (Ref × Rat))) : List Ref → Except Err (List (Ref × Rat))
  | [] => .ok []
  | p :: rest => do
    let r ← pick p
    let rs ← pickAll pick rest
    pure (r.toList ++ rs)

/-- The final checks (parameter.py:1628-1637). -/
def finalCheck (pairs : List (Ref × Rat)) : Except Err (List (Ref × Rat)) :=
  if pairs.all (fun e => e.1.isParam) then
    if pairs.all (fun e => e.1.independent) then .ok pairs else .error .parameterNotIndependent
  else .error .typeError

/-- The list branch (parameter.py:1615-1626). -/
def pairList (ps : List Ref) (vs : List Rat) : Except Err (List (Ref × Rat)) :=
  if vs.length = ps.length then .ok (ps.zip vs) else .error .valueError

/-- The pairs of one kind of values. -/
def pairUp (ps : List Ref) (allowPartial : Bool) : Vals → Except Err (List (Ref × Rat))
  | .list vs => pairList ps vs
  | .map m => pickAll (mapPick m allowPartial) ps
  | .result m => pickAll (resultPick m allowPartial) ps

/-- `check_convert_param_values_assign(params, values, allow_partial)` (parameter.py:1564-1637); `params = none` is
`None`.  An empty list of parameters is returned at once, unless the values are a result. -/
def checkConvert (params : Option (List Ref)) (allowPartial : Bool) (values : Vals) : Except Err (List (Ref × Rat)) :=
  match params, values with
  | none, .result m => pickAll (resultPick m allowPartial) (m.map (·.1)) >>= finalCheck
  | none, _ => .error .valueError
  | some [], .list _ => .ok []
  | some [], .map _ => .ok []
  | some ps, vals => pairUp ps allowPartial vals >>= finalCheck

/-- `check_convert_param_values_assign(mapping, None)` (parameter.py:1566-1570): keys and values of the mapping. -/
def checkConvertMapping (m : List (Ref × Rat)) : Except Err (List (Ref × Rat)) :=
  pairList (m.map (·.1)) (m.map (·.2)) >>= finalCheck

/-- `set_values` (parameter.py:1512-1550): the store afterwards and the exception. -/
def setValues (s : Store) (params : Option (List Ref)) (allowPartial : Bool) (values : Vals) : Store × Option Err :=
  match checkConvert params allowPartial values with
  | .error e => (s, some e)
  | .ok pairs => setAll s (pairs.map (fun e => (e.1.id, e.2)))

/-- `assign_values` (parameter.py:1483-1509). -/
def assignValues (s : Store) (params : Option (List Ref)) (allowPartial : Bool) (values : Vals) : Store × Option Err :=
  match checkConvert params allowPartial values with
  | .error e => (s, some e)
  | .ok pairs => (assignAll s (pairs.map (fun e => (e.1.id, e.2))), none)

end Zfit.Par
