import Verif.Functor.ProductModel
import Verif.Common.Except

/-!
# Model of functions and of the arithmetic with them

/repo/zfit/core/basefunc.py, models/functions.py, core/operations.py and models/special.py (`SimplePDF`).

One event at a time; a parameter is identified with its name (names are unique within a model, see C15) and `θ` gives the
values.  Limits are boxes: one interval (of any type `I`) for each observable.
-/

namespace Zfit.Fun

open Zfit

/-- The space of a function: its observables and, if they are set, the limits of each. -/
structure Spc (I : Type) where
  obs : List String
  lims : Option (List (String × I))
  deriving DecidableEq

variable {R I : Type}

/-- No two spaces have different limits for the same observable (space.py:2377-2399: otherwise `LimitsIncompatibleError`). -/
def consistent [DecidableEq I] (ss : List (Spc I)) : Bool :=
  ss.all (fun s => ss.all (fun t => s.obs.all (fun o =>
    match dictGet (s.lims.getD []) o, dictGet (t.lims.getD []) o with
    | some a, some b => a = b
    | _, _ => true)))

/-- `combine_spaces` (space.py:2303-2528) for boxes and `extract_daughter_input_obs` (basefunctor.py:32-67) without `obs`, which
catches `LimitsIncompatibleError` (but not `LimitsNotSpecifiedError`).  For the combination of all kinds of limits see area Space. -/
def combine [DecidableEq I] (ss : List (Spc I)) : Except Err (Spc I) :=
  let obs := Functor.commonObs (ss.map (·.obs))
  if obs.isEmpty then .error .coordinatesUnderdefined
  else if ss.all (·.lims.isNone) then .ok ⟨obs, none⟩
  else if !ss.all (·.lims.isSome) then .error .limitsNotSpecified
  else if consistent ss then
    .ok ⟨obs, some (obs.filterMap (fun o => (dictGet (ss.flatMap (fun s => s.lims.getD [])) o).map (fun l => (o, l))))⟩
  else .ok ⟨obs, none⟩

/-- A function object: `SimpleFunc` (functions.py:20-42) with its parameters (keyword and name of the parameter), whether the
callable wants `self`, and the callable, which gets the values of the observables in the order of its space;
`SumFunc` and `ProdFunc` (functions.py:58-92) without parameters of their own. -/
inductive Func (R I : Type) : Type
  | simple (s : Spc I) (params : List (String × String)) (wantsSelf : Bool) (f : (String → R) → List R → Except Err R)
  | sum (s : Spc I) (fs : List (Func R I))
  | prod (s : Spc I) (fs : List (Func R I))

/-- `space`. -/
def Func.space : Func R I → Spc I
  | .simple s _ _ _ => s
  | .sum s _ => s
  | .prod s _ => s

/-- `params` (baseobject.py:197-199): the parameters given to the object itself. -/
def Func.params : Func R I → List (String × String)
  | .simple _ ps _ _ => ps
  | .sum _ _ => []
  | .prod _ _ => []

/-- `x.with_obs(self.obs)` in `_convert_sort_x` (basemodel.py:221-244). -/
def sortX (obs : List String) (x : List (String × R)) : Except Err (List (String × R)) :=
  obs.mapM (fun o => match dictGet x o with
    | some v => .ok (o, v)
    | none => .error .obsIncompatible)

/-- `SimpleFuncV1._func` (functions.py:38-42): `func(x)`, and after a `TypeError` `func(self, x)`.  A callable with another
signature raises `TypeError`; `r` is what it does otherwise. -/
def callUser (wantsSelf : Bool) (r : Except Err R) : Except Err R :=
  let call (selfGiven : Bool) := if wantsSelf = selfGiven then r else .error .typeError
  match call false with
  | .error .typeError => call true
  | r => r

/-- `_call_value` (basefunc.py:76-85). -/
def callValue (r : Except Err R) : Except Err R :=
  match r with
  | .error .valueError => .error .shapeIncompatible
  | r => r

variable [Add R] [Zero R] [Mul R] [One R]

mutual
/-- `func(x)` (basefunc.py:48-85) with `_func` of the classes (functions.py:38-42, 68-71, 89-92), for data with observables. -/
def eval (θ : String → R) : Func R I → List (String × R) → Except Err R
  | .simple s _ w f, x => do
    let x ← sortX s.obs x
    callValue (callUser w (f θ (x.map (·.2))))
  | .sum s fs, x => do
    let x ← sortX s.obs x
    callValue (do return (← evalAll θ fs x).sum)
  | .prod s fs, x => do
    let x ← sortX s.obs x
    callValue (do return (← evalAll θ fs x).prod)
/-- `[func.func(x) for func in self.funcs]`. -/
def evalAll (θ : String → R) : List (Func R I) → List (String × R) → Except Err (List R)
  | [], _ => .ok []
  | f :: fs, x => do
    let v ← eval θ f x
    let vs ← evalAll θ fs x
    return v :: vs
end

/-- `func(x)` for an array: `convert_to_data(x, obs=self.obs)` (basemodel.py:225-233) names the columns. -/
def evalArray (θ : String → R) (f : Func R I) (xs : List R) : Except Err R :=
  if xs.length = f.space.obs.length then eval θ f (f.space.obs.zip xs) else .error .valueError

mutual
/-- `get_params(floating=None)` (baseobject.py:135-196, basefunctor.py:77-97) for parameters that are not composed. -/
def reported : Func R I → List String
  | .simple _ ps _ _ => ps.map (·.2)
  | .sum _ fs => reportedAll fs
  | .prod _ fs => reportedAll fs
/-- The union over the functions. -/
def reportedAll : List (Func R I) → List String
  | [] => []
  | f :: fs => reported f ++ reportedAll fs
end

/-! ### Arithmetic -/

/-- `d.update(e)`. -/
def dictUpdate (d e : List (String × String)) : List (String × String) := e.foldl (fun d kv => dictSet d kv.1 kv.2) d

/-- `multiply_param_func` (operations.py:102-113): a `SimpleFunc` of the product.  The parameters are given as keywords: `obs`,
`func` and `self` are already taken (`TypeError`), `name` is taken as the name. -/
def mulParam (p : String) (g : Func R I) : Except Err (Func R I) :=
  let params := dictUpdate [(p, p)] g.params
  if params.any (fun kv => kv.1 = "obs" || kv.1 = "func" || kv.1 = "self") then .error .typeError
  else .ok (.simple ⟨g.space.obs, none⟩ (params.filter (fun kv => kv.1 ≠ "name")) false
    (fun θ xs => do return θ p * (← eval θ g (g.space.obs.zip xs))))

/-- What a user writes: functions of their own, multiplied with parameters, added (`+`, `SumFunc`) and multiplied (`*`,
`ProdFunc`). -/
inductive Expr (R I : Type) : Type
  | func (s : Spc I) (params : List (String × String)) (wantsSelf : Bool) (f : (String → R) → List R → Except Err R)
  | scale (p : String) (e : Expr R I)
  | sum (es : List (Expr R I))
  | prod (es : List (Expr R I))

mutual
/-- The function objects that are created (operations.py:26-73, 124-166, functions.py:45-55, 58-92). -/
def build [DecidableEq I] : Expr R I → Except Err (Func R I)
  | .func s ps w f => .ok (.simple s ps w f)
  | .scale p e => do mulParam p (← build e)
  | .sum es => do
    let fs ← buildAll es
    return .sum (← combine (fs.map (·.space))) fs
  | .prod es => do
    let fs ← buildAll es
    return .prod (← combine (fs.map (·.space))) fs
/-- The functions one after the other. -/
def buildAll [DecidableEq I] : List (Expr R I) → Except Err (List (Func R I))
  | [] => .ok []
  | e :: es => do
    let f ← build e
    let fs ← buildAll es
    return f :: fs
end

/-! ### Conversions -/

/-- What matters of a `SimplePDF` (special.py:19-31). -/
structure PdfObj (R I : Type) where
  space : Spc I
  params : List (String × String)
  extended : Option String
  normArg : Option String
  density : (String → R) → List (String × R) → Except Err R

/-- `convert_func_to_pdf` (operations.py:231-247) for a function: `SimplePDF(func=func.func, obs=func.obs, name=name, **func.params)`.
The keywords `obs`, `func`, `name` and `self` are already given; `label`, `norm` and `extended` are arguments of `SimplePDF`. -/
def asPdf (f : Func R I) : Except Err (PdfObj R I) :=
  if f.params.any (fun kv => kv.1 = "obs" || kv.1 = "func" || kv.1 = "name" || kv.1 = "self") then .error .typeError
  else .ok
    { space := ⟨f.space.obs, none⟩
      params := f.params.filter (fun kv => kv.1 ≠ "label" && kv.1 ≠ "norm" && kv.1 ≠ "extended")
      extended := dictGet f.params "extended"
      normArg := dictGet f.params "norm"
      density := fun θ x => eval θ f x }

/-- `get_params(floating=None)` of the PDF. -/
def PdfObj.reported (p : PdfObj R I) : List String := p.params.map (·.2) ++ p.extended.toList

/-! ### Copies -/

/-- A `SimpleFunc` as an object that changes: `params` is a dictionary that `self.params` hands out. -/
structure FuncState where
  params : List (String × String)
  deriving DecidableEq

/-- `copy(**override_params)` of a `SimpleFunc` (basefunc.py:42-45): the dictionary is updated in place, and the class is called
with it as only argument, but it needs a function as well.  The result is the exception and the state of the original. -/
def copy (st : FuncState) (override : List (String × String)) : Except Err Unit × FuncState :=
  (.error .typeError, ⟨dictUpdate st.params override⟩)

end Zfit.Fun
