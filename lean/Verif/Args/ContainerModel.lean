import Verif.Common.Py

/-!
# Model of `convert_to_container` (zfit/util/container.py), which makes a list of an argument that is one thing or several
-/

namespace Zfit.Cont

open Zfit

/-- The types that matter: the builtin containers, the types that are listed in the function (container.py 60-76: strings, tensors, arrays, data, losses,
models, spaces, parameters, binned data, binnings, histograms, tables, axes), and all others. -/
inductive Ty
  | list
  | tuple
  | set
  | dict
  | listed (name : String)
  | other (name : String)
  deriving DecidableEq, Repr

/-- An object: its identity, its type, and what iterating over it gives: the things in it (`none` if it is not iterable), or the exception that this
raises.  The things are objects again; here only their identities are needed. -/
structure Obj where
  id : Nat
  ty : Ty
  items : Except Err (List Nat)
  deriving DecidableEq

/-- An object that is not iterable, such as a number: `list(value)` raises a `TypeError`. -/
def Obj.notIterable (id : Nat) (ty : Ty) : Obj := ⟨id, ty, .error .typeError⟩

/-- The two containers that are asked for. -/
inductive Container
  | list
  | tuple
  deriving DecidableEq

/-- The type of the container. -/
def Container.ty : Container → Ty
  | .list => .list
  | .tuple => .tuple

/-- The argument `non_containers` (container.py 21, 49-53): `None`, a list of types, or something else (as a tuple or `False`). -/
inductive NonContainers
  | none
  | list (tys : List Ty)
  | other

/-- What is returned: `None`, the object itself, or a new container. -/
inductive Result
  | none
  | same (o : Obj)
  | new (c : Container) (ids : List Nat)
  deriving DecidableEq

/-- Whether a type is one of those listed in the function. -/
def Ty.isListed : Ty → Bool
  | .listed _ => true
  | _ => false

/-- `convert_to_container(value, container, non_containers, ignore, convert_none)` (container.py 20-88).  `ignore` says for which types the object is
returned; `noneId` is the identity of `None`, for `convert_none`.  Types are compared by equality: subclasses have the type of which they count as an
instance.  Without an iterable, `container((value,))` (87). -/
def convert (noneId : Nat) (c : Container) (nc : NonContainers) (ignore : Ty → Bool) (convertNone : Bool) (value : Option Obj) : Except Err Result :=
  match nc with
  | .other => .error .typeError
  | nc =>
    let tys := match nc with
      | .list tys => tys
      | _ => []
    match value with
    | .none => if convertNone then .ok (.new c [noneId]) else .ok .none
    | some o =>
      if o.ty = c.ty then .ok (.same o)
      else if ignore o.ty then .ok (.same o)
      else if tys.contains o.ty || o.ty.isListed then .ok (.new c [o.id])
      else
        match o.items with
        | .ok ids => .ok (.new c ids)
        | .error e => if e = .typeError ∨ e = .attributeError then .ok (.new c [o.id]) else .error e

/-- With the defaults. -/
def convertTo (noneId : Nat) (c : Container) (value : Option Obj) : Except Err Result := convert noneId c .none (fun _ => false) false value

end Zfit.Cont
