import Verif.Param.Graph
import Verif.Param.Model

/-!
# Model of evaluations at given values of the parameters

`pdf.pdf(x, params=...)` and all other methods of models with this argument, `loss.value(params=...)`,
`loss.gradient(paramvals=...)` and so on, `loss(x)`.

/repo/zfit/core/baseobject.py: `convert_param_values`, `_check_set_input_params`, `_check_convert_input_paramvalues`;
/repo/zfit/core/loss.py: `_check_set_input_params`, `check_precompile`, `value`, `__call__` (executed eagerly).

The values of the parameters are the store of area `Param`; what is evaluated is an arbitrary function of the values, which
may raise.
-/

namespace Zfit.Args

open Zfit Zfit.Par

/-- A key of a mapping of values: a name, or a parameter. -/
inductive PKey
  | name (n : String)
  | param (l : Leaf)
  deriving DecidableEq

/-- `param.name if isinstance(param, ZfitParameter) else param`. -/
def PKey.str : PKey → String
  | .name n => n
  | .param l => l.name

/-- What is given for the values of the parameters: nothing, a mapping (or the `values` of a `FitResult`), an array,
something else. -/
inductive Point
  | none
  | mapping (m : List (PKey × ℚ))
  | array (vs : List ℚ)
  | other

/-- `convert_param_values` (baseobject.py:66-87). -/
def convertParamValues : Point → Except Err (List (String × ℚ))
  | .none => .ok []
  | .mapping m => .ok (m.foldl (fun d p => dictSet d p.1.str p.2) [])
  | .array _ => .error .typeError
  | .other => .error .typeError

/-- The loop over all parameters (baseobject.py:222-224): what is set for each, and what remains; `pop` of a name that is
no longer there is a `KeyError`. -/
def pickValues (values : List (String × ℚ)) : List Leaf → List (String × ℚ) →
    Except Err (List (Leaf × ℚ) × List (String × ℚ))
  | [], rest => .ok ([], rest)
  | l :: ls, rest =>
    if (dictGet values l.name).isSome then
      match dictGet rest l.name with
      | Option.none => .error .keyError
      | some v => do
        let r ← pickValues values ls (rest.filter (fun p => p.1 ≠ l.name))
        pure ((l, v) :: r.1, r.2)
    else pickValues values ls rest

/-- `_check_convert_input_paramvalues` (baseobject.py:210-237); `leaves` are all independent parameters. -/
def checkConvertPoint (leaves : List Leaf) (p : Point) : Except Err (List (Leaf × ℚ)) :=
  match p with
  | .none => .ok []
  | p => do
    let values ← convertParamValues p
    let r ← pickValues values leaves values
    if r.2.isEmpty then pure r.1 else .error .valueError

/-- `with set_values(...)` around an evaluation (baseobject.py:206-208, parameter.py:1512-1550, temporary.py:54-61): the
store afterwards, and the result. -/
def evalAt {α : Type} (s : Par.Store) (b : List (Nat × ℚ)) (f : (Nat → ℚ) → Except Err α) : Par.Store × Except Err α :=
  match setAll s b with
  | (s', some e) => (s', .error e)
  | (s', Option.none) =>
    match setAll s' (b.map (fun iv => (iv.1, (s iv.1).value))) with
    | (s'', some e) => (s'', .error e)
    | (s'', Option.none) => (s'', f (fun i => (s' i).value))

/-- The pairs by identity. -/
def blockOf (b : List (Leaf × ℚ)) : List (Nat × ℚ) := b.map (fun p => (p.1.id, p.2))

/-- An evaluation of a model with `params=p`. -/
def modelEval {α : Type} (leaves : List Leaf) (s : Par.Store) (p : Point) (f : (Nat → ℚ) → Except Err α) :
    Par.Store × Except Err α :=
  match checkConvertPoint leaves p with
  | .error e => (s, .error e)
  | .ok b => evalAt s (blockOf b) f

/-- The first lines of `_check_set_input_params` of a loss (loss.py:326-333). -/
def lossPoint (leaves : List Leaf) (p : Point) : Except Err Point :=
  match p with
  | .array vs => if vs.length ≠ leaves.length then .error .valueError
      else .ok (.mapping ((leaves.map PKey.param).zip vs))
  | p => .ok p

/-- A loss: `get_params(floating=None)`, `get_params()`, its value with a given offset (`none`: `False`), the offset that
is chosen for a value, and the option `subtr_const`. -/
structure LossObj where
  leaves : List Leaf
  free : List Leaf
  value : Option ℚ → (Nat → ℚ) → Except Err ℚ
  offsetOf : ℚ → ℚ
  subtract : Bool

/-- What a loss remembers: whether it was evaluated, and the offset. -/
structure LossMem where
  precompiled : Bool
  offset : Option ℚ

/-- The body of `check_precompile` (loss.py:390-412): the offset after it. -/
def LossObj.firstBody (l : LossObj) (m : LossMem) (ρ : Nat → ℚ) : Except Err (Option ℚ) :=
  if l.subtract ∧ m.offset = Option.none then (l.value (some 0) ρ).map (fun v => some (l.offsetOf v))
  else .ok m.offset

/-- `check_precompile(params=p)` (loss.py:385-413): the store, the memory and what is to be set from now on. -/
def LossObj.precompile (l : LossObj) (s : Par.Store) (m : LossMem) (p : Point) :
    Par.Store × LossMem × Except Err (Sum Point (List (Leaf × ℚ))) :=
  if m.precompiled then (s, m, .ok (.inl p))
  else match lossPoint l.leaves p with
    | .error e => (s, m, .error e)
    | .ok p => match checkConvertPoint l.leaves p with
      | .error e => (s, m, .error e)
      | .ok b => match evalAt s (blockOf b) (l.firstBody m) with
        | (s', .error e) => (s', m, .error e)
        | (s', .ok off) => (s', ⟨true, off⟩, .ok (.inr b))

/-- An evaluation of a loss (loss.py:521-555, 618-625 and alike) with `params=p`: `f` is what is evaluated, given the
offset that is remembered. -/
def LossObj.eval {α : Type} (l : LossObj) (s : Par.Store) (m : LossMem) (p : Point)
    (f : Option ℚ → (Nat → ℚ) → Except Err α) : Par.Store × LossMem × Except Err α :=
  match l.precompile s m p with
  | (s, m, .error e) => (s, m, .error e)
  | (s, m, .ok (.inr b)) => let r := evalAt s (blockOf b) (f m.offset); (r.1, m, r.2)
  | (s, m, .ok (.inl p)) => match lossPoint l.leaves p with
    | .error e => (s, m, .error e)
    | .ok p => let r := modelEval l.leaves s p (f m.offset); (r.1, m, r.2)

/-- `loss.value(params=p, full=full)` (loss.py:521-555). -/
def LossObj.valueAt (l : LossObj) (s : Par.Store) (m : LossMem) (p : Point) (full : Bool) :
    Par.Store × LossMem × Except Err ℚ :=
  l.eval s m p (fun off => l.value (if full then Option.none else off))

/-- `loss(x)` for an array (loss.py:486-519): the free parameters are set.  Without any the argument is ignored
(parameter.py:1576-1578). -/
def LossObj.call (l : LossObj) (s : Par.Store) (m : LossMem) (x : List ℚ) : Par.Store × LossMem × Except Err ℚ :=
  if l.free.length = 0 then l.valueAt s m .none true
  else if x.length ≠ l.free.length then (s, m, .error .valueError)
  else
    let b := blockOf (l.free.zip x)
    match setAll s b with
    | (s', some e) => (s', m, .error e)
    | (s', Option.none) =>
      let r := l.valueAt s' m .none true
      match setAll r.1 (b.map (fun iv => (iv.1, (s iv.1).value))) with
      | (s'', some e) => (s'', r.2.1, .error e)
      | (s'', Option.none) => (s'', r.2.1, r.2.2)

end Zfit.Args
