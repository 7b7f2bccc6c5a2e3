import Verif.Functor.OpsModel

/-!
# Model of the operators `+` and `*` on parameters of every kind

How Python gets from `a + b` and `a * b` to a result: the methods of `Parameter` (parameter.py:299-329), of constant and
composed parameters, which are replaced by those of tensors (parameter.py:117-155, 963-964, 1322), of tensors and of models
(basemodel.py:1346-1364), and the reflected methods.  The functions of operations.py are modelled again, now with
parameters whose values change: a value depends on the values `Env` of the free parameters at the time it is computed.

Simplified: numbers are Python numbers, not numpy scalars; tensors are real scalars.  Trusted: an operator of a tensor
converts parameters and numbers to their values, and returns `NotImplemented` for a model, which cannot be converted.
-/

namespace Zfit.Functor

open Zfit

/-- The values of the free parameters at some time. -/
abbrev Env := String → Rat

/-- The kinds of parameters (parameter.py:347, 903, 828 and 988). -/
inductive PKind
  | free
  | constant
  | composed

/-- What may stand left or right of an operator, and what it gives. -/
inductive V (X : Type)
  /-- a parameter: its value depends on the values of the free parameters -/
  | param (kind : PKind) (name : String) (val : Env → Rat)
  | number (v : Rat)
  | tensor (v : Rat)
  /-- a function: its parameters are kept, so its values change with them -/
  | func (f : Env → X → Rat) (params : List (String × String))
  | pdf (id : Nat) (extended : Bool)
  | productPDF (ids : List Nat)
  | sumPDF (ids : List Nat)

inductive Op
  | add
  | mul

/-- The operation on numbers. -/
def Op.app : Op → Rat → Rat → Rat
  | .add, a, b => a + b
  | .mul, a, b => a * b

variable {X : Type}

/-- `_convert_to_known` (operations.py:169-180) with `convert_to_parameter` (parameter.py:1410-1456): numbers and tensors
become constant parameters.  A product or a sum of PDFs is here a PDF that stays as it is. -/
def known : V X → V X
  | .number v => .param .constant "FIXED_autoparam" (fun _ => v)
  | .tensor v => .param .constant "FIXED_autoparam" (fun _ => v)
  | o => o

/-- `multiply_param_func` (operations.py:102-113): the function multiplies with the parameter whenever it is called. -/
def scaleFunc (name : String) (val : Env → Rat) (f : Env → X → Rat) (ps : List (String × String)) : V X :=
  .func (fun e x => val e * f e x) (ps.foldl (fun d e => dictSet d e.1 e.2) [(name, name)])

/-- `multiply` (operations.py:26-73) after the conversion; composite PDFs as operands are not modelled
(`modelIncompatible` stands for them). -/
def mulEnv (env : Env) : V X → V X → Except Err (V X)
  | .param _ _ v, .param _ _ w => .ok (.tensor (v env * w env))
  | .param _ n v, .func f ps => .ok (scaleFunc n v f ps)
  | .param _ _ _, .pdf _ _ => .error .breakingApiChange
  | .func f ps, .param _ n v => .ok (scaleFunc n v f ps)
  | .func f _, .func g _ => .ok (.func (fun e x => f e x * g e x) [])
  | .pdf i e, .pdf j e' => if !e && e' then .error .intentionAmbiguous else .ok (.productPDF [i, j])
  | _, _ => .error .modelIncompatible

/-- `add` (operations.py:124-166) after the conversion; composite PDFs as operands are not modelled
(`functionNotImplemented` stands for them). -/
def addEnv : V X → V X → Except Err (V X)
  | .param _ _ _, .func _ _ => .error .notImplementedError
  | .func _ _, .param _ _ _ => .error .notImplementedError
  | .func f _, .func g _ => .ok (.func (fun e x => f e x + g e x) [])
  | .func _ _, .pdf _ _ => .error .typeError
  | .pdf _ _, .func _ _ => .error .typeError
  | .pdf i e, .pdf j e' => if !(e && e') then .error .breakingApiChange else .ok (.sumPDF [i, j])
  | _, _ => .error .functionNotImplemented

/-- `operations.add` and `operations.multiply`. -/
def operation (env : Env) : Op → V X → V X → Except Err (V X)
  | .add, a, b => addEnv (known a) (known b)
  | .mul, a, b => mulEnv env (known a) (known b)

/-- The value a tensor operation converts an operand to: `_dense_var_to_tensor` gives the value of a parameter
(parameter.py:98-112). -/
def scalar? (env : Env) : V X → Option Rat
  | .param _ _ v => some (v env)
  | .number v => some v
  | .tensor v => some v
  | _ => none

/-- The operator of a tensor with the tensor left (`flip = false`) or right; `none` is `NotImplemented`. -/
def tensorOp (env : Env) (op : Op) (flip : Bool) (v : Rat) (o : V X) : Option (Except Err (V X)) :=
  (scalar? env o).map fun w => .ok (.tensor (if flip then op.app w v else op.app v w))

/-- `isinstance(other, (ZfitModel, ZfitParameter))` (parameter.py:300, 308, 316, 324). -/
def isZfit : V X → Bool
  | .number _ => false
  | .tensor _ => false
  | _ => true

/-- The methods `__add__`, `__mul__` (`flip = false`) and `__radd__`, `__rmul__` (`flip = true`) of `self`.  A free
parameter has those of `ZfitParameterMixin` (parameter.py:299-329): `FunctionNotImplemented` is suppressed and the operator
of the variable used.  Those of constant and composed parameters are overwritten by `_run_op`, which takes the operator of
the value (parameter.py:145-152). -/
def method (env : Env) (op : Op) (flip : Bool) (self other : V X) : Option (Except Err (V X)) :=
  match self with
  | .number v =>
    match other with
    | .number w => some (.ok (.number (if flip then op.app w v else op.app v w)))
    | _ => none
  | .tensor v => tensorOp env op flip v other
  | .param .free n v =>
    if isZfit other then
      match (if flip then operation env op other (.param .free n v) else operation env op (.param .free n v) other) with
      | .error .functionNotImplemented => tensorOp env op flip (v env) other
      | r => some r
    else tensorOp env op flip (v env) other
  | .param _ _ v => tensorOp env op flip (v env) other
  | m => some (if flip then operation env op other m else operation env op m other)

/-- `a + b` or `a * b` in Python: the method of the left operand, then the reflected one of the right operand. -/
def run (env : Env) (op : Op) (a b : V X) : Except Err (V X) :=
  match method env op false a b with
  | some r => r
  | none =>
    match method env op true b a with
    | some r => r
    | none => .error .typeError

end Zfit.Functor
