import Verif.Common.Py
import Mathlib.Data.Int.Notation
import Mathlib.Data.List.Basic

/-!
# Model of the decorator `supports` of the methods a user overrides

/repo/zfit/core/space.py: `check_norm` (3226-3308), `param_args_supported` (3311-3331), `no_multiple_limits` (3334-3354),
`supports` (3357-3397).

A call is given by its positional and keyword arguments, without `self`.  A method has a signature (positional-or-keyword parameters, then
keyword-only ones, each possibly with a default) and a body, an arbitrary function of the values bound to its parameters that returns or
raises.  `*args` and `**kwargs` in the signature are not modelled.  The bodies that were run are recorded.
-/

namespace Zfit.Own

open Zfit

/-- A space used as normalisation range: spaces are equal (`==`) if they have the same number; `noLimits` is `limits_are_false`. -/
structure Sp where
  which : ℕ
  noLimits : Bool
  deriving DecidableEq, Repr

/-- The values that are handed to a method: `None`, `False`, a space to normalise over, limits with a number of pieces, other things. -/
inductive Val
  | none
  | false
  | space (s : Sp)
  | limits (pieces : ℕ)
  | thing (i : ℕ)
  deriving DecidableEq, Repr

/-- A parameter of a method. -/
structure Par where
  name : String
  default : Option Val
  deriving DecidableEq, Repr

/-- The signature of a method, without `self`. -/
structure Sig where
  pos : List Par
  kws : List Par
  deriving DecidableEq, Repr

/-- `inspect.signature(func).parameters`, in order. -/
def Sig.names (s : Sig) : List String := (s.pos ++ s.kws).map (·.name)

/-- `keys.index(name)` if there is such a parameter. -/
def Sig.index? (s : Sig) (name : String) : Option ℕ := if name ∈ s.names then some (s.names.idxOf name) else none

/-- What is raised: `TypeError` with the text "got an unexpected keyword argument '…'", or anything else. -/
inductive Exn
  | unexpected (kw : String)
  | raised (e : Err)
  deriving DecidableEq, Repr

/-- A call. -/
structure Call where
  args : List Val
  kwargs : List (String × Val)
  deriving DecidableEq, Repr

/-- The names of the keyword arguments. -/
def Call.keys (c : Call) : List String := c.kwargs.map (·.1)

/-- A dictionary without one key. -/
def dropKey (d : List (String × Val)) (k : String) : List (String × Val) := d.filter fun kv => decide (kv.1 ≠ k)

abbrev Env := List (String × Val)

/-- What Python finds wrong with a keyword argument. -/
def fault (s : Sig) (n : ℕ) (kv : String × Val) : Option Exn :=
  if kv.1 ∉ s.names then some (.unexpected kv.1)
  else if kv.1 ∈ (s.pos.take n).map (·.name) then some (.raised .typeError)
  else none

/-- The arguments by name. -/
def given (s : Sig) (c : Call) : Env := (s.pos.map (·.name)).zip c.args ++ c.kwargs

/-- The value of one parameter. -/
def bindPar (g : Env) (p : Par) : Except Exn (String × Val) :=
  match dictGet g p.name with
  | some v => .ok (p.name, v)
  | none =>
    match p.default with
    | some v => .ok (p.name, v)
    | none => .error (.raised .typeError)

/-- How Python binds the arguments of a call: keyword arguments are checked first and in order, then the number of positional
arguments, then whether something is missing. -/
def bind (s : Sig) (c : Call) : Except Exn Env :=
  match c.kwargs.findSome? (fault s c.args.length) with
  | some e => .error e
  | none => if s.pos.length < c.args.length then .error (.raised .typeError) else (s.pos ++ s.kws).mapM (bindPar (given s c))

/-- A method as the user writes it. -/
structure Method (R : Type) where
  sig : Sig
  body : Env → Except Exn R

/-- What a call did: with which values the body was run, and the outcome. -/
abbrev Ran (R : Type) := List Env × Except Exn R

variable {R : Type}

/-- An undecorated call. -/
def Method.run (m : Method R) (c : Call) : Ran R :=
  match bind m.sig c with
  | .error e => ([], .error e)
  | .ok env => ([env], m.body env)

/-- Call again without a keyword argument; `kwargs.pop` raises if there is none. -/
def again (f : Call → Ran R) (c : Call) (kw : String) (before : List Env) : Ran R :=
  if kw ∈ c.keys then
    let r := f { c with kwargs := dropKey c.kwargs kw }
    (before ++ r.1, r.2)
  else (before, .error (.raised .keyError))

/-- `param_args_supported` (3311-3331); `values` are the current values of the parameters of the model. -/
def withParams (values : Val) (f : Call → Ran R) (c : Call) : Ran R :=
  let c' := if "params" ∈ c.keys then c else { c with kwargs := c.kwargs ++ [("params", values)] }
  match f c' with
  | (log, .error (.unexpected "params")) => again f c' "params" log
  | r => r

/-- What is declared as `norm` in `supports`: `True`, or a collection that may contain `"space"` and `"norm"` (empty for `False` and `None`). -/
inductive Support
  | all
  | some (space norm : Bool)
  deriving DecidableEq, Repr

/-- The space and the norm of the PDF. -/
structure Owner where
  space : Sp
  norm : Sp
  deriving DecidableEq, Repr

/-- `kwargs.get(k)`, where an absent value is like `None`. -/
def kwGet (c : Call) (k : String) : Val := (dictGet c.kwargs k).getD .none

/-- Which norm is given, and whether by position (3249-3268). -/
def normGiven (s : Sig) (c : Call) : Val × Bool :=
  if kwGet c "norm_range" ≠ .none then (kwGet c "norm_range", false)
  else if kwGet c "norm" ≠ .none then (kwGet c "norm", false)
  else
    let first : Val × Bool :=
      match s.index? "norm_range" with
      | some i => if i < c.args.length then (c.args[i]?.getD .none, true) else (.none, false)
      | none => (.none, false)
    match s.index? "norm" with
    | some j => if j < c.args.length then (c.args[j]?.getD .none, true) else (first.1, false)
    | none => first

/-- `kwargs[k] = False` if it is there. -/
def falsify (d : List (String × Val)) (k : String) : List (String × Val) := if k ∈ d.map (·.1) then dictSet d k .false else d

/-- The replacement of a space without limits by `False` (3283-3292); `args[i] = False` raises if there is no such position. -/
def replaceNorm (s : Sig) (c : Call) (isArg : Bool) : Except Exn Call :=
  if !isArg then .ok { c with kwargs := falsify (falsify c.kwargs "norm_range") "norm" }
  else
    match s.index? "norm_range", s.index? "norm" with
    | some i, _ => if i < c.args.length then .ok { c with args := c.args.set i .false } else .error (.raised .indexError)
    | none, some j => .ok { c with args := c.args.set j .false }
    | none, none => .ok c

/-- The call of the method with a second try (3297-3306). -/
def retryNorm (f : Call → Ran R) (c : Call) : Ran R :=
  match f c with
  | (log, .error (.unexpected "norm_range")) => again f c "norm_range" log
  | (log, .error (.unexpected "norm")) => again f c "norm" log
  | r => r

/-- `check_norm` (3226-3308). -/
def checkNorm (supp : Support) (o : Owner) (s : Sig) (f : Call → Ran R) (c : Call) : Ran R :=
  let given := normGiven s c
  match given.1 with
  | .space sp =>
    let notSupported := match supp with
      | .all => false
      | .some space norm => !(space && decide (o.space = sp)) && !(norm && decide (o.norm = sp))
    if notSupported then
      if sp.noLimits then
        match replaceNorm s c given.2 with
        | .ok c' => retryNorm f c'
        | .error e => ([], .error e)
      else ([], .error (.raised .normNotImplemented))
    else retryNorm f c
  | .none => retryNorm f c
  | .false => retryNorm f c
  | _ => if supp = .all then retryNorm f c else ([], .error (.raised .normNotImplemented))

/-- The number of pieces of what is given as limits; anything else has no `_depr_n_limits`. -/
def Val.pieces : Val → Except Exn ℕ
  | .limits n => .ok n
  | _ => .error (.raised .attributeError)

/-- `no_multiple_limits` (3334-3354). -/
def noMultiple (s : Sig) (f : Call → Ran R) (c : Call) : Ran R :=
  match s.index? "limits" with
  | none => f c
  | some i =>
    let limits : Except Exn Val :=
      if i < c.args.length then .ok (c.args[i]?.getD .none)
      else (dictGet c.kwargs "limits").elim (.error (.raised .keyError)) .ok
    match limits with
    | .error e => ([], .error e)
    | .ok v =>
      match v.pieces with
      | .error e => ([], .error e)
      | .ok n => if n > 1 then ([], .error (.raised .multipleLimitsNotImplemented)) else f c

/-- A method decorated with `supports(norm=…, multiple_limits=…)` (3382-3397), called on an object. -/
def Method.supported (m : Method R) (supp : Support) (multiple : Bool) (o : Owner) (values : Val) (c : Call) : Ran R :=
  let inner := checkNorm supp o m.sig (withParams values m.run)
  if multiple then inner c else noMultiple m.sig inner c

end Zfit.Own
