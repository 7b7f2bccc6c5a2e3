import Verif.Common.Py
import Mathlib.Data.Rat.Defs

/-!
# Model of saving and loading parameters in documents

/repo/zfit/serialization/serializer.py: `to_hs3` (330-360, the variables), `from_hs3` (403-420), `post_serialize` (447-481),
`pre_deserialize` (483-492), `elements_match` (502-533), `replace_matching` (536-551).

A document is a JSON value.  The conversion of zfit objects to JSON values and back (pydantic) is not modelled.  The order of
the keys of a dictionary is kept (as in Python); the dictionary of a parameter has its `type` last, as `from_hs3` writes it.
-/

namespace Zfit.Io

open Zfit

/-- A JSON value. -/
inductive J where
  | null
  | bool (b : Bool)
  | num (q : Rat)
  | str (s : String)
  | arr (l : List J)
  | obj (fields : List (String × J))
  deriving Repr

abbrev Fields := List (String × J)

/-- `mapping.get(k)`. -/
def get? (k : String) : Fields → Option J
  | [] => none
  | (k', v) :: rest => if k = k' then some v else get? k rest

/-- What a pattern asks of a field: anything, a string, or `False`. -/
inductive Want | any | str (s : String) | isFalse
  deriving DecidableEq, Repr

/-- `val == v` (serializer.py:511-515). -/
def Want.fits : Want → J → Bool
  | .any, _ => true
  | .str s, .str t => s == t
  | .isFalse, .bool b => !b
  | _, _ => false

/-- A mapping matches a pattern if it has all its keys with fitting values (serializer.py:505-519).  (The comparison
`mapping == match` that follows cannot succeed otherwise.) -/
def matchPattern (pattern : List (String × Want)) : J → Bool
  | .obj fields => pattern.all fun p => ((get? p.1 fields).map p.2.fits).getD false
  | _ => false

/-- The patterns of `post_serialize` (453, 459, 464-471). -/
def constPattern : List (String × Want) := [("name", .any), ("type", .str "ConstantParameter"), ("floating", .isFalse)]
def composedPattern : List (String × Want) := [("name", .any), ("type", .str "ComposedParameter"), ("func", .any)]
def paramPattern : List (String × Want) := [("name", .any), ("min", .any), ("max", .any), ("stepsize", .any)]

mutual
/-- `replace_matching(mapping, replace)` (536-551), where `f` gives the replacement of a match. -/
def replace (f : J → Option J) : J → J
  | .obj fields => match f (.obj fields) with
    | some r => r
    | none => .obj (replaceFields f fields)
  | .arr l => match f (.arr l) with
    | some r => r
    | none => .arr (replaceList f l)
  | .null => (f .null).getD .null
  | .bool b => (f (.bool b)).getD (.bool b)
  | .num q => (f (.num q)).getD (.num q)
  | .str s => (f (.str s)).getD (.str s)
def replaceFields (f : J → Option J) : List (String × J) → List (String × J)
  | [] => []
  | (k, v) :: rest => (k, replace f v) :: replaceFields f rest
def replaceList (f : J → Option J) : List J → List J
  | [] => []
  | v :: rest => replace f v :: replaceList f rest
end

/-- A match is replaced by `x["name"]` (454, 460, 472). -/
def byName (pattern : List (String × Want)) : J → Option J
  | .obj fields => if matchPattern pattern (.obj fields) then get? "name" fields else none
  | _ => none

/-- One kind of objects in `post_serialize` (451-473): constants, then composed parameters, then parameters. -/
def forward (v : J) : J := replace (byName paramPattern) (replace (byName composedPattern) (replace (byName constPattern) v))

/-- `replace_backward` (486): a string that is the name of a variable is replaced by the variable. -/
def lookup (vars : Fields) : J → Option J
  | .str s => get? s vars
  | _ => none

/-- One kind of objects in `pre_deserialize` (490-491). -/
def backward (vars : Fields) (v : J) : J := replace (lookup vars) v

/-- Remove the type (341). -/
def delType : J → J
  | .obj fields => .obj (fields.filter fun f => f.1 != "type")
  | v => v

/-- The type a variable gets on loading (411-420); `none` for a space, which is dropped. -/
def typeOf (fields : Fields) : Option String :=
  if (get? "value" fields).isSome then
    match get? "floating" fields with
    | some (.bool false) => some "ConstantParameter"
    | _ => some "Parameter"
  else if (get? "func" fields).isSome then some "ComposedParameter"
  else none

/-- Loading of the variables (410-420). -/
def addType : J → Option J
  | .obj fields => (typeOf fields).map fun t => .obj (fields ++ [("type", .str t)])
  | _ => none

def loadVars : Fields → Fields
  | [] => []
  | (k, v) :: rest => match addType v with
    | some v' => (k, v') :: loadVars rest
    | none => loadVars rest

/-- Save the four kinds of objects and the variables, and load them (without composed parameters among the variables). -/
def saveVars (vars : Fields) : Fields := vars.map fun (k, v) => (k, delType v)

/-- Save and load a document with its variables. -/
def roundTrip (vars : Fields) (doc : J) : J := backward (loadVars (saveVars vars)) (forward doc)

end Zfit.Io
