import Verif.Param.Graph

/-!
# Model of which parameters may be differentiated automatically

/repo/zfit/core/baseobject.py: `BaseParametrized.__init__`, `get_params(autograd=...)`, `_get_params`; the overrides in
/repo/zfit/core/basepdf.py, binnedpdf.py, loss.py and /repo/zfit/models/basefunctor.py; `_check_assert_autograd` of a loss.

A model is as in area `Param` (`Mod`), with the names of its parameters and the names that it declares as differentiable.
-/

namespace Zfit.Args

open Zfit Zfit.Par

/-- The argument `autograd_params` of a PDF: left out or `True`, names, or anything else. -/
inductive Auto
  | all
  | names (l : List String)
  | other
  deriving DecidableEq

/-- `_autograd_params` (baseobject.py:98-112) for parameters of these names. -/
def Auto.declare (a : Auto) (params : List String) : Except Err (List String) :=
  match a with
  | .all => .ok (params ++ ["yield"])
  | .names l => if l.any (fun n => n ∉ params && n ≠ "yield") then .error .valueError else .ok l
  | .other => .error .valueError

/-- A model: `params` by name, `_autograd_params`, the yield and the daughters. -/
inductive AMod
  | node (params : List (String × Par)) (auto : List String) (yld : Option Par) (subs : List AMod)

/-- Creating a model. -/
def AMod.make (params : List (String × Par)) (a : Auto) (yld : Option Par) (subs : List AMod) : Except Err AMod :=
  (a.declare (params.map (·.1))).map (fun auto => .node params auto yld subs)

/-- The loop in `BaseParametrized._get_params` (baseobject.py:188-192): all parameters, or those that do not support it. -/
def ownParams (nograd : Bool) (params : List (String × Par)) (auto : List String) : List Par :=
  (params.filter (fun p => !nograd || p.1 ∉ auto)).map (·.2)

/-- The yield in `BasePDF._get_params` (basepdf.py:820-842, binnedpdf.py:228-243). -/
def addYieldAuto (nograd : Bool) (auto : List String) (yld : Option Par) (floating isYield extract : Option Bool)
    (own : List Leaf) : Except Err (List Leaf) :=
  if isYield = some false then .ok own
  else match yld with
    | some y => (extractFilter [y] floating extract).map
        (fun ys => if nograd = true ∧ "yield" ∈ auto then own else oset (ys ++ own))
    | none => if isYield = some true then .error .notExtended else .ok own

mutual
/-- `_get_params` of a model (baseobject.py:176-195, basepdf.py:808-842, basefunctor.py:77-95); `nograd` is
`autograd=False`, otherwise it is `None`. -/
def AMod.collect (nograd : Bool) (floating extract : Option Bool) : AMod → Option Bool → Except Err (List Leaf)
  | .node params auto yld subs, isYield => do
    let own ← if isYield = some true then .ok [] else extractFilter (ownParams nograd params auto) floating extract
    let withY ← addYieldAuto nograd auto yld floating isYield extract own
    if isYield = some true then .ok withY
    else (AMod.collectList nograd floating extract subs).map (fun ds => oset (withY ++ ds))
/-- The daughters', chained. -/
def AMod.collectList (nograd : Bool) (floating extract : Option Bool) : List AMod → Except Err (List Leaf)
  | [] => .ok []
  | m :: ms => do
    let a ← AMod.collect nograd floating extract m (some false)
    let b ← AMod.collectList nograd floating extract ms
    pure (a ++ b)
end

/-- `get_params` (baseobject.py:135-174) from `_get_params`: for `autograd=True` all parameters without those that do
not support it, whatever the other flags are. -/
def getParamsAuto (collect : Bool → Option Bool → Option Bool → Option Bool → Except Err (List Leaf))
    (floating isYield extract autograd : Option Bool) : Except Err (List Leaf) :=
  match autograd with
  | some true => do
    let all ← collect false floating isYield extract
    let no ← collect true none none none
    pure (all.filter (fun x => x ∉ no))
  | some false => collect true floating isYield extract
  | none => collect false floating isYield extract

/-- `model.get_params(floating, is_yield, extract_independent, autograd=...)`. -/
def AMod.getParams (m : AMod) (floating isYield extract autograd : Option Bool) : Except Err (List Leaf) :=
  getParamsAuto (fun ng fl iy ext => m.collect ng fl ext iy) floating isYield extract autograd

/-- A loss: models, parameters of the constraints (which all support it), and whether it depends on the yields. -/
structure ALoss where
  models : List AMod
  constraints : List (List Par)
  extended : Bool

/-- All models' (loss.py:307-315). -/
def modelsCollect (nograd : Bool) (floating isYield extract : Option Bool) : List AMod → Except Err (List Leaf)
  | [] => .ok []
  | m :: ms => do
    let a ← m.collect nograd floating extract isYield
    let b ← modelsCollect nograd floating isYield extract ms
    pure (a ++ b)

/-- `_get_params` of a loss (loss.py:299-324, 1113-1123). -/
def ALoss.collect (l : ALoss) (nograd : Bool) (floating isYield extract : Option Bool) : Except Err (List Leaf) := do
  let isYield := if l.extended then isYield else some false
  let ms ← modelsCollect nograd floating isYield extract l.models
  let cs ← constraintsParams floating extract (if nograd then l.constraints.map (fun _ => []) else l.constraints)
  pure (oset (oset ms ++ cs))

/-- `loss.get_params`. -/
def ALoss.getParams (l : ALoss) (floating isYield extract autograd : Option Bool) : Except Err (List Leaf) :=
  getParamsAuto (fun ng fl iy ext => l.collect ng fl iy ext) floating isYield extract autograd

/-- `_check_assert_autograd` (loss.py:857-869): the parameters for which `AutogradNotSupported` is raised; nothing is
raised if there are none. -/
def ALoss.refused (l : ALoss) (params : List Leaf) : Except Err (List Leaf) := do
  let ok ← l.getParams none none (some true) (some true)
  pure (params.filter (fun x => x ∉ ok))

/-- `CachedPDF(pdf)` (cache.py:97-98): no own parameters, `autograd_params=[]`. -/
def cachedPdf (m : AMod) (extended : Option Par) : Except Err AMod := AMod.make [] (.names []) extended [m]

end Zfit.Args
