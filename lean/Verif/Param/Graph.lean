import Verif.Common.Py
import Verif.Common.Except

/-!
# Model of parameter dependencies: `get_params` and the uniqueness of names

/repo/zfit/core/baseobject.py, /repo/zfit/core/parameter.py, /repo/zfit/core/basepdf.py,
/repo/zfit/models/basefunctor.py, /repo/zfit/core/loss.py.
The argument `autograd` is not modelled (it is `None` throughout).
-/

namespace Zfit.Par

open Zfit

/-- The classes of parameters: `Parameter`, `ConstantParameter`, `ComposedParameter`/`ComplexParameter`. -/
inductive Kind
  | indep
  | const
  | composed
  deriving DecidableEq, Repr

/-- A parameter as an element of a set: identity, name, and what `independent` and `floating` tell
(parameter.py:520-536, 842-875, 938-949). -/
structure Leaf where
  id : Nat
  name : String
  kind : Kind
  floating : Bool
  deriving DecidableEq, Repr

/-- A parameter with the parameters it depends on (`params`); only composed parameters have any. -/
inductive Par
  | node (leaf : Leaf) (deps : List Par)

/-- The parameter itself, without its dependencies. -/
def Par.leaf : Par → Leaf
  | .node l _ => l

/-- `OrderedSet(iterable)`: first occurrences, in order. -/
def oset (l : List Leaf) : List Leaf := l.foldl (fun acc x => if x ∈ acc then acc else acc ++ [x]) []

/-- `p.floating == floating` for `floating` given, else no filter (baseobject.py:286). -/
def floatOk (floating : Option Bool) (l : Leaf) : Bool :=
  match floating with
  | none => true
  | some b => l.floating == b

mutual
/-- `param.get_params(floating=floating, extract_independent=True)`.  `Parameter.get_params` (parameter.py:663-676):
itself, if it passes the filter.  Others (baseobject.py:176-195, through `extract_filter_params`): the independent
parameters of their `params`. -/
def Par.indeps (floating : Option Bool) : Par → List Leaf
  | .node l deps =>
    if l.kind = .indep then [l].filter (floatOk floating)
    else (oset (Par.indepsList floating deps)).filter (floatOk floating)
/-- The chain of the results for several parameters (baseobject.py:271-273). -/
def Par.indepsList (floating : Option Bool) : List Par → List Leaf
  | [] => []
  | p :: ps => Par.indeps floating p ++ Par.indepsList floating ps
end

/-- `extract_filter_params` (baseobject.py:262-287). -/
def extractFilter (params : List Par) (floating extract : Option Bool) : Except Err (List Leaf) :=
  let own := oset (params.map Par.leaf)
  let ps := match extract with
    | some true => oset (Par.indepsList floating params)
    | none => oset (own ++ oset (Par.indepsList floating params))
    | some false => own
  match floating with
  | none => .ok ps
  | some b =>
    if extract ≠ some true && !ps.all (fun l => l.kind == .indep) then .error .valueError
    else .ok (ps.filter (fun l => l.floating == b))

/-- `param.get_params(floating, is_yield, extract_independent)` of a parameter: `Parameter` ignores the rest
(parameter.py:671-676), the others go through `BaseParametrized._get_params` (baseobject.py:176-195). -/
def Par.getParams : Par → Option Bool → Option Bool → Option Bool → Except Err (List Leaf)
  | .node l deps, floating, isYield, extract =>
    if l.kind = .indep then extractFilter [.node l deps] floating (some false)
    else if isYield = some true then .ok []
    else extractFilter deps floating extract

/-- A model: its own parameters, its yield, its daughter models (none for a simple PDF). -/
inductive Mod
  | node (params : List Par) (yld : Option Par) (subs : List Mod)

/-- The part of `BasePDF._get_params` (basepdf.py:808-842) that adds the yield. -/
def addYield (yld : Option Par) (floating isYield extract : Option Bool) (own : List Leaf) : Except Err (List Leaf) :=
  if isYield = some false then .ok own
  else match yld with
    | some y => (extractFilter [y] floating extract).map (fun ys => oset (ys ++ own))
    | none => if isYield = some true then .error .notExtended else .ok own

mutual
/-- `model.get_params`: `BaseParametrized._get_params` (baseobject.py:184-195), then the yield (basepdf.py:808-842), then
the daughters, without their yields (basefunctor.py:77-95). -/
def Mod.getParams (floating extract : Option Bool) : Mod → Option Bool → Except Err (List Leaf)
  | .node params yld subs, isYield => do
    let own ← if isYield = some true then .ok [] else extractFilter params floating extract
    let withY ← addYield yld floating isYield extract own
    if isYield = some true then .ok withY
    else (Mod.getParamsList floating extract subs).map (fun ds => oset (withY ++ ds))
/-- The daughters' parameters, chained. -/
def Mod.getParamsList (floating extract : Option Bool) : List Mod → Except Err (List Leaf)
  | [] => .ok []
  | m :: ms => do
    let a ← Mod.getParams floating extract m (some false)
    let b ← Mod.getParamsList floating extract ms
    pure (a ++ b)
end

/-- `_assert_params_unique` (baseobject.py:119-133) for the list of all parameters. -/
def namesUnique (all : List Leaf) : Bool := (all.map (·.name)).all (fun n => (all.map (·.name)).count n ≤ 1)

/-- The check at the end of constructing a PDF (basepdf.py:168). -/
def Mod.assertUnique (m : Mod) : Except Err Unit := do
  let all ← Mod.getParams none none m none
  if namesUnique all then .ok () else .error .paramNameNotUnique

/-- The check when a parameter is constructed (parameter.py:286). -/
def Par.assertUnique (p : Par) : Except Err Unit := do
  let all ← p.getParams none none none
  if namesUnique all then .ok () else .error .paramNameNotUnique

/-- A loss: its models, the parameters of its constraints, and whether it depends on the yields. -/
structure Loss where
  models : List Mod
  constraints : List (List Par)
  extended : Bool

/-- All models' parameters (loss.py:307-315). -/
def modelsParams (floating isYield extract : Option Bool) : List Mod → Except Err (List Leaf)
  | [] => .ok []
  | m :: ms => do
    let a ← Mod.getParams floating extract m isYield
    let b ← modelsParams floating isYield extract ms
    pure (a ++ b)

/-- All constraints' parameters (loss.py:317-324). -/
def constraintsParams (floating extract : Option Bool) : List (List Par) → Except Err (List Leaf)
  | [] => .ok []
  | c :: cs => do
    let a ← extractFilter c floating extract
    let b ← constraintsParams floating extract cs
    pure (a ++ b)

/-- `loss.get_params` (loss.py:299-324, 1113-1123): a loss that is not extended asks its models without yields. -/
def Loss.getParams (l : Loss) (floating isYield extract : Option Bool) : Except Err (List Leaf) := do
  let isYield := if l.extended then isYield else some false
  let ms ← modelsParams floating isYield extract l.models
  let cs ← constraintsParams floating extract l.constraints
  pure (oset (oset ms ++ cs))

/-- The check when a loss is constructed (loss.py:247). -/
def Loss.assertUnique (l : Loss) : Except Err Unit := do
  let all ← l.getParams none none none
  if namesUnique all then .ok () else .error .paramNameNotUnique

end Zfit.Par
