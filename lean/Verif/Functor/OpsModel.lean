import Verif.Common.Py
import Mathlib.Algebra.Order.Field.Rat

/-!
# Model of the arithmetic between parameters, functions and PDFs

/repo/zfit/core/operations.py and the operators of `BaseModel` (basemodel.py:1346-1364) that call it.  A function is its
value for a point; a PDF is known by its identity and whether it is extended.
-/

namespace Zfit.Functor

open Zfit

/-- What may stand left or right of an operator. -/
inductive Obj (X : Type)
  /-- a `ZfitParameter` -/
  | param (name : String) (v : Rat)
  /-- a `ZfitFunc`: its value and its `params` (name of the argument and of the parameter) -/
  | func (f : X → Rat) (params : List (String × String))
  /-- a `ZfitPDF` -/
  | pdf (id : Nat) (extended : Bool)
  /-- a number or tensor -/
  | number (v : Rat)
  /-- a Python callable -/
  | callable
  /-- anything else, not convertible to a parameter -/
  | other

/-- What an operation returns. -/
inductive Res (X : Type)
  | tensor (v : Rat)
  | func (f : X → Rat) (params : List (String × String))
  | productPDF (ids : List Nat)
  | sumPDF (ids : List Nat)

variable {X : Type}

/-- `_convert_to_known` for one object (operations.py:169-180), with `convert_to_parameter` (parameter.py:1410-1456): a
number becomes a constant parameter with an automatic name, a callable raises `ValueError`. -/
def toKnown : Obj X → Except Err (Obj X)
  | .number v => .ok (.param "FIXED_autoparam" v)
  | .callable => .error .valueError
  | .other => .error .typeError
  | o => .ok o

/-- `multiply_param_func` (operations.py:102-113): `params = {param.name: param}; params.update(func.params)`. -/
def mulParamFunc (name : String) (v : Rat) (f : X → Rat) (ps : List (String × String)) : Res X :=
  .func (fun x => v * f x) (ps.foldl (fun d e => dictSet d e.1 e.2) [(name, name)])

/-- `multiply_pdf_pdf` (operations.py:76-90). -/
def mulPdfPdf (i : Nat) (ext1 : Bool) (j : Nat) (ext2 : Bool) : Except Err (Res X) :=
  if !ext1 && ext2 then .error .intentionAmbiguous else .ok (.productPDF [i, j])

/-- The dispatch of `multiply` (operations.py:36-73) after the conversion; the parameters of a `ProdFunc` are those of
its functions, which it holds as dependencies (`params={}`). -/
def mulKnown : Obj X → Obj X → Except Err (Res X)
  | .param _ v, .param _ w => .ok (.tensor (v * w))
  | .param n v, .func f ps => .ok (mulParamFunc n v f ps)
  | .param _ _, .pdf _ _ => .error .breakingApiChange
  | .param _ _, _ => .error .assertionError
  | .func f ps, .param n v => .ok (mulParamFunc n v f ps)
  | .func f _, .func g _ => .ok (.func (fun x => f x * g x) [])
  | .func _ _, .pdf _ _ => .error .modelIncompatible
  | .pdf i e, .pdf j e' => mulPdfPdf i e j e'
  | _, _ => .error .modelIncompatible

/-- `multiply` (operations.py:26-73). -/
def multiply (a b : Obj X) : Except Err (Res X) := do
  let a ← toKnown a
  let b ← toKnown b
  mulKnown a b

/-- `add_pdf_pdf` (operations.py:183-195). -/
def addPdfPdf (i : Nat) (ext1 : Bool) (j : Nat) (ext2 : Bool) : Except Err (Res X) :=
  if !(ext1 && ext2) then .error .breakingApiChange else .ok (.sumPDF [i, j])

/-- The dispatch of `add` (operations.py:132-166) after the conversion. -/
def addKnown : Obj X → Obj X → Except Err (Res X)
  | .param _ _, .func _ _ => .error .notImplementedError
  | .func _ _, .param _ _ => .error .notImplementedError
  | .func f _, .func g _ => .ok (.func (fun x => f x + g x) [])
  | .func _ _, .pdf _ _ => .error .typeError
  | .pdf _ _, .func _ _ => .error .typeError
  | .pdf i e, .pdf j e' => addPdfPdf i e j e'
  | _, _ => .error .functionNotImplemented

/-- `add` (operations.py:124-166). -/
def add (a b : Obj X) : Except Err (Res X) := do
  let a ← toKnown a
  let b ← toKnown b
  addKnown a b

end Zfit.Functor
