import Verif.Common.Py

/-!
# Model of saving objects to and loading them from HS3 documents: names and parameters

/repo/zfit/serialization/serializer.py: `Serializer.initialize` (199-233), `to_hs3` (299-342: unique names and the
variables), `from_hs3` (401-438), `pre_deserialize` (483-492), `BaseRepr.to_orm` (647-668).
/repo/zfit/serialization/paramrepr.py: `make_param_constructor` (6-30).

The conversion between objects and their fields is done by pydantic and not modelled: an object (a PDF, data, a constraint, a
loss) is a type with its arguments in order, and an argument is an object or a parameter.  What a parameter holds (value,
limits, step size, label) is a value of an arbitrary type `C`.  In a document a parameter is its name; parameters without limits,
which stay written out, and composed parameters are not modelled.
-/

namespace Zfit.Hs3

open Zfit

/-! ## Objects -/

mutual
/-- An object: a parameter, or a type with arguments. -/
inductive Obj (α : Type) where
  | param (a : α)
  | make (type : String) (args : Objs α)
/-- The arguments of an object. -/
inductive Objs (α : Type) where
  | nil
  | cons (o : Obj α) (os : Objs α)
end

variable {α β C : Type}

mutual
/-- The object with its parameters replaced (post_serialize and pre_deserialize, 447-492: a parameter becomes its name, and a name
the parameter). -/
def Obj.map (f : α → β) : Obj α → Obj β
  | .param a => .param (f a)
  | .make t as => .make t (as.map f)
def Objs.map (f : α → β) : Objs α → Objs β
  | .nil => .nil
  | .cons o os => .cons (o.map f) (os.map f)
end

mutual
/-- The parameters of an object (`pdf.get_params(floating=None, extract_independent=None)`, 336; the order is that of the arguments
here). -/
def Obj.params : Obj α → List α
  | .param a => [a]
  | .make _ as => as.params
def Objs.params : Objs α → List α
  | .nil => []
  | .cons o os => o.params ++ os.params
end

/-! ## Unique names -/

/-- The naming of the objects of one kind (322-329).  `addr i` is what `iter(loss_number)` prints as for the `i`-th object: the address
of an object that is thrown away. -/
def uniqueFrom (addr : Nat → String) : Nat → List (String × α) → List (String × α) → List (String × α)
  | _, acc, [] => acc
  | i, acc, (n, o) :: rest =>
    let name := if (dictGet acc n).isSome then n ++ "_" ++ addr i else n
    uniqueFrom addr (i + 1) (dictSet acc name o) rest

def uniqueNames (addr : Nat → String) (objs : List (String × α)) : List (String × α) := uniqueFrom addr 0 [] objs

/-! ## Saving -/

/-- What a process holds: its parameters, each with its name and content (a parameter is a position in the list), and the class attribute
`Serializer._existing_params` (165). -/
structure Store (C : Type) where
  heap : List (String × C)
  existing : Option (List (String × Nat))

/-- A document: the variables, and the objects with parameters by name (299-309; the metadata, the spaces and the division of the objects
into kinds are left out). -/
structure Doc (C : Type) where
  variables : List (String × C)
  objects : List (String × Obj String)

/-- The name of a parameter. -/
def nameOf (heap : List (String × C)) (i : Nat) : String := ((heap[i]?).map Prod.fst).getD ""

/-- One parameter in `variables` (336-342): only the first of its name is written. -/
def addVariable (heap : List (String × C)) (vars : List (String × C)) (i : Nat) : List (String × C) :=
  match heap[i]? with
  | some (n, c) => if (dictGet vars n).isSome then vars else vars ++ [(n, c)]
  | none => vars

/-- `to_hs3(obj)` (331-360) for objects whose names are unique. -/
def toHs3 (heap : List (String × C)) (objs : List (String × Obj Nat)) : Doc C where
  variables := (objs.flatMap fun o => o.2.params).foldl (addVariable heap) []
  objects := objs.map fun o => (o.1, o.2.map (nameOf heap))

/-! ## Loading -/

/-- `param_constructor(name, **kwargs)` (paramrepr.py:18-28). -/
def getParam (s : Store C) (name : String) (c : C) : Store C × Except Err Nat :=
  match s.existing with
  | none => (s, .error .attributeError)
  | some d => match dictGet d name with
    | some i => (s, .ok i)
    | none => ({ heap := s.heap ++ [(name, c)], existing := some (dictSet d name s.heap.length) }, .ok s.heap.length)

mutual
/-- `to_orm` (647-668) with `convert_to_orm` (554-593): the arguments first, in order, then the constructor, which may refuse them.  A name
that is not among the variables stays a string, which is refused (a validation error). -/
def loadObj (vars : List (String × C)) (accepts : String → Objs Nat → Bool) (s : Store C) :
    Obj String → Store C × Except Err (Obj Nat)
  | .param n => match dictGet vars n with
    | none => (s, .error .valueError)
    | some c => match getParam s n c with
      | (s', .ok i) => (s', .ok (.param i))
      | (s', .error e) => (s', .error e)
  | .make t as => match loadObjs vars accepts s as with
    | (s', .ok as') => if accepts t as' then (s', .ok (.make t as')) else (s', .error .valueError)
    | (s', .error e) => (s', .error e)
def loadObjs (vars : List (String × C)) (accepts : String → Objs Nat → Bool) (s : Store C) :
    Objs String → Store C × Except Err (Objs Nat)
  | .nil => (s, .ok .nil)
  | .cons o os => match loadObj vars accepts s o with
    | (s', .error e) => (s', .error e)
    | (s', .ok o') => match loadObjs vars accepts s' os with
      | (s'', .error e) => (s'', .error e)
      | (s'', .ok os') => (s'', .ok (.cons o' os'))
end

/-- The variables are constructed first (424, 430-435). -/
def loadVariables (s : Store C) : List (String × C) → Store C × Except Err (List (String × Nat))
  | [] => (s, .ok [])
  | (n, c) :: rest => match getParam s n c with
    | (s', .error e) => (s', .error e)
    | (s', .ok i) => match loadVariables s' rest with
      | (s'', .error e) => (s'', .error e)
      | (s'', .ok r) => (s'', .ok ((n, i) :: r))

/-- Then the objects (431-435). -/
def loadObjects (vars : List (String × C)) (accepts : String → Objs Nat → Bool) (s : Store C) :
    List (String × Obj String) → Store C × Except Err (List (String × Obj Nat))
  | [] => (s, .ok [])
  | (n, o) :: rest => match loadObj vars accepts s o with
    | (s', .error e) => (s', .error e)
    | (s', .ok o') => match loadObjects vars accepts s' rest with
      | (s'', .error e) => (s'', .error e)
      | (s'', .ok r) => (s'', .ok ((n, o') :: r))

/-- The body of `from_hs3` (402-438). -/
def loadBody (accepts : String → Objs Nat → Bool) (doc : Doc C) (s : Store C) :
    Store C × Except Err (List (String × Nat) × List (String × Obj Nat)) :=
  match loadVariables s doc.variables with
  | (s', .error e) => (s', .error e)
  | (s', .ok vs) => match loadObjects doc.variables accepts s' doc.objects with
    | (s'', .error e) => (s'', .error e)
    | (s'', .ok os) => (s'', .ok (vs, os))

/-- `_existing_params[param.name] = param` for the parameters given (226-228). -/
def reuseDict (heap : List (String × C)) (reuse : List Nat) : List (String × Nat) :=
  reuse.foldl (fun d i => dictSet d (nameOf heap i) i) []

/-- `with initialize(reuse_params=reuse)` (221-233). -/
def initialized {R : Type} (reuse : List Nat) (body : Store C → Store C × Except Err R) (s : Store C) : Store C × Except Err R :=
  match s.existing with
  | none =>
    let r := body { s with existing := some (reuseDict s.heap reuse) }
    ({ r.1 with existing := none }, r.2)
  | some _ => body s

/-- `from_hs3(load, reuse_params=reuse)` (363-438). -/
def fromHs3 (accepts : String → Objs Nat → Bool) (doc : Doc C) (reuse : List Nat) (s : Store C) :
    Store C × Except Err (List (String × Nat) × List (String × Obj Nat)) :=
  initialized reuse (loadBody accepts doc) s

/-- A history of loads: each may succeed or fail. -/
def runLoads (accepts : String → Objs Nat → Bool) (s : Store C) : List (Doc C × List Nat) → Store C
  | [] => s
  | (doc, reuse) :: rest => runLoads accepts (fromHs3 accepts doc reuse s).1 rest

end Zfit.Hs3
