import Verif.Loss.Model
import Verif.Loss.Spec

/-!
# Model of `create_new`, of the options of losses and of the conversion of functions to losses

/repo/zfit/core/loss.py: `BaseUnbinnedNLL.create_new` (880-970), `_check_init_options` (267-293), the option that `check_precompile` sets
(385-413), `SimpleLoss.__init__` as far as it concerns `errordef` (1404-1424), `SimpleLoss.create_new` (1561-1574),
`register_convertable_loss` and `from_any` (1462-1479), `_simple_loss_constructor` (1577-1585); /repo/zfit/_loss/binnedloss.py:
`BaseBinned.create_new` (129-203), `BinnedChi2.__init__` and `ExtendedBinnedChi2.__init__` as far as it concerns the options (619-626).
-/

namespace Zfit.Loss

open Zfit

variable {Θ X : Type}

/-! ## `create_new` -/

/-- What is given to `create_new`; `none` is `NONE`.  Each dataset comes with whether it is a `Data` (otherwise it is an array, and the dataset
is what it is converted to). -/
structure NewArgs (Θ X : Type) where
  model : Option (List (Mod Θ X)) := none
  data : Option (List (Bool × Dat X)) := none
  fitRange : Option (Option (List (Option (Range X)))) := none
  constraints : Option (List (Constr Θ)) := none
  opts : Option Opts := none

/-- `_check_convert_model_data` (loss.py:415-437) for the arrays among the data: with a fit range, be it `[None]`, they are refused.  A binned
loss refuses them anyway (binnedloss.py:103-119). -/
def refused (kind : Kind) (ranges : Bool) (used : List (Bool × Dat X)) : Option Err :=
  if used.all (·.1) then none
  else if kind.binned then some .valueError
  else if ranges then some .typeError
  else none

/-- `create_new` (loss.py:952-970, binnedloss.py:191-203): the new loss and its state.  Without options those of the loss are copied, with the
constant found; a binned loss has no fit ranges. -/
def Loss.createNew (l : Loss Θ X) (s : State) (a : NewArgs Θ X) : Except Err (Loss Θ X × State) :=
  let model := a.model.getD l.model
  let data := a.data.getD (l.data.map fun d => (true, d))
  let ranges := if l.kind.binned then none else a.fitRange.getD (some l.fitRange)
  match refused l.kind ranges.isSome ((model.zip data).map (·.2)) with
  | some e => .error e
  | none =>
    match Loss.make l.kind model (data.map (·.2)) ranges (a.constraints.getD l.constraints) (a.opts.getD l.opts) with
    | .error e => .error e
    | .ok l' => .ok (l', ⟨false, if a.opts.isSome then none else s.offset⟩)

/-! ## `SimpleLoss` -/

/-- A function given to `SimpleLoss`: `f` is its value, `errordef` its attribute, if it has it. -/
structure SFunc (F : Type) where
  f : F
  errordef : Option ℚ

/-- What is given as gradient or hessian: "num" (also if nothing is given), "zfit" or a function (1367-1390). -/
inductive Deriv (F : Type)
  | num
  | zfit
  | own (f : F)
  deriving DecidableEq, Repr

/-- A `SimpleLoss`: function, parameters, error definition, gradient, hessian, whether it is compiled. -/
structure Simple (F P : Type) where
  func : SFunc F
  params : List P
  errordef : ℚ
  gradient : Deriv F
  hessian : Deriv F
  jit : Bool

/-- `SimpleLoss.__init__` (1367-1424); other strings as derivatives are left out. -/
def Simple.make {F P : Type} (func : SFunc F) (params : List P) (errordef : Option ℚ) (gradient hessian : Deriv F) (jit : Bool) :
    Except Err (Simple F P) :=
  match func.errordef, errordef with
  | some _, some _ => .error .valueError
  | some e, none => .ok ⟨func, params, e, gradient, hessian, jit⟩
  | none, some e => .ok ⟨func, params, e, gradient, hessian, jit⟩
  | none, none => .error .valueError

/-- `SimpleLoss.create_new` (1561-1574): derivatives and compilation are not handed on. -/
def Simple.createNew {F P : Type} (l : Simple F P) (func : Option (SFunc F)) (params : Option (List P)) (errordef : Option ℚ) :
    Except Err (Simple F P) :=
  Simple.make (func.getD l.func) (params.getD l.params) (some (errordef.getD l.errordef)) .num .num false

/-! ## Converters -/

/-- What a converter does with a function: a loss, `False`, anything else that is no loss (`None`), an exception. -/
inductive Made (L : Type)
  | loss (l : L)
  | no
  | nothing
  | raises (e : Err)
  deriving DecidableEq, Repr

/-- A registered converter. -/
structure Converter (F L : Type) where
  convert : F → Made L
  priority : Int

/-- `register_convertable_loss` (1462-1466): appended, then sorted by decreasing priority; Python's sort is stable. -/
def register {F L : Type} (cs : List (Converter F L)) (c : Converter F L) : List (Converter F L) :=
  (cs ++ [c]).mergeSort (fun a b => decide (b.priority ≤ a.priority))

/-- `from_any` (1468-1479): the first that does not return `False`. -/
def fromAny {F L : Type} : List (Converter F L) → F → Made L
  | [], _ => .raises .runtimeError
  | c :: cs, f =>
    match c.convert f with
    | .no => fromAny cs f
    | r => r

/-- `_simple_loss_constructor` (1577-1582): what `SimpleLoss(...)` does is given; a `TypeError` is swallowed, and only the one about unexpected
keyword arguments gives `False`. -/
def defaultConverter {L : Type} (init : Except (Err × Bool) L) : Made L :=
  match init with
  | .ok l => .loss l
  | .error (e, unexpected) => if e = .typeError then (if unexpected then .no else .nothing) else .raises e

/-! ## Options -/

/-- The value of an option. -/
inductive OptVal
  | none
  | bool (b : Bool)
  | num (q : ℚ)
  | text (s : String)
  deriving DecidableEq, Repr

/-- A dictionary of options. -/
abbrev OptDict := List (String × OptVal)

/-- `if options.get(key) is None: options[key] = default`. -/
def setDefault (d : OptDict) (key : String) (v : OptVal) : OptDict :=
  match dictGet d key with
  | Option.none => dictSet d key v
  | some .none => dictSet d key v
  | some _ => d

/-- `_check_init_options` (267-293): `numgrad` is the setting `numerical_grad`, `kahan` whether there are more than 200000 events. -/
def cleanOptions (numgrad kahan : Bool) (d : OptDict) : OptDict :=
  setDefault (setDefault (setDefault (setDefault d "numhess" (.bool true)) "numgrad" (.bool numgrad)) "subtr_const" (.bool true))
    "sumtype" (if kahan then .text "kahan" else .none)

/-- `options["empty"]`, `options["errors"]` of a chi2 (binnedloss.py:621-625). -/
def chi2Options (d : OptDict) : OptDict := setDefault (setDefault d "empty" (.text "ignore")) "errors" (.text "data")

/-- All dictionaries, those written by the user, and for each loss its class and its dictionary. -/
structure Heap where
  dicts : List OptDict
  user : List ℕ
  losses : List (Kind × ℕ)
  deriving Repr

/-- The dictionary with a number. -/
def Heap.at (h : Heap) (r : ℕ) : OptDict := h.dicts.getD r []

/-- The constructors, with the dictionary given: it is completed by a chi2 in place; the loss has a copy of it, completed. -/
def Heap.make (numgrad kahan : Bool) (h : Heap) (kind : Kind) (r : ℕ) : Heap :=
  let dicts := if kind.chi2 then h.dicts.set r (chi2Options (h.at r)) else h.dicts
  { h with
    dicts := dicts ++ [cleanOptions numgrad kahan (dicts.getD r [])]
    losses := h.losses ++ [(kind, h.dicts.length)] }

/-- Whether an option counts as true. -/
def OptVal.truthy : OptVal → Bool
  | .none => false
  | .bool b => b
  | .num q => decide (q ≠ 0)
  | .text s => decide (s ≠ "")

/-- The options after the first evaluation (391-411): the constant is kept among them. -/
def evaluated (d : OptDict) (constant : ℚ) : OptDict :=
  let subtr := (dictGet d "subtr_const").getD .none
  if subtr.truthy then
    setDefault (if subtr = .bool true then d else dictSet d "subtr_const_value" subtr) "subtr_const_value" (.num constant)
  else d

/-- What the user does: writes a dictionary, makes a loss with one of them or without, makes a new loss from a loss, evaluates one. -/
inductive HOp
  | write (d : OptDict)
  | make (kind : Kind) (given : Option ℕ)
  | createNew (i : ℕ) (given : Option ℕ)
  | evaluate (i : ℕ) (constant : ℚ)
  deriving Repr

/-- One operation; dictionaries and losses that do not exist are left out. -/
def Heap.step (numgrad kahan : Bool) (h : Heap) : HOp → Heap
  | .write d => { h with dicts := h.dicts ++ [d], user := h.user ++ [h.dicts.length] }
  | .make kind none => { h with dicts := h.dicts ++ [[]] }.make numgrad kahan kind h.dicts.length
  | .make kind (some k) =>
    match h.user[k]? with
    | none => h
    | some r => h.make numgrad kahan kind r
  | .createNew i none =>
    match h.losses[i]? with
    | none => h
    | some l => { h with dicts := h.dicts ++ [h.at l.2] }.make numgrad kahan l.1 h.dicts.length
  | .createNew i (some k) =>
    match h.losses[i]?, h.user[k]? with
    | some l, some r => h.make numgrad kahan l.1 r
    | _, _ => h
  | .evaluate i c =>
    match h.losses[i]? with
    | none => h
    | some l => { h with dicts := h.dicts.set l.2 (evaluated (h.at l.2) c) }

/-- A history. -/
def Heap.run (numgrad kahan : Bool) (ops : List HOp) : Heap := ops.foldl (Heap.step numgrad kahan) ⟨[], [], []⟩

/-- The options of a loss. -/
def Heap.options (h : Heap) (i : ℕ) : Option OptDict := (h.losses[i]?).map fun l => h.at l.2

/-- A dictionary of the user. -/
def Heap.written (h : Heap) (k : ℕ) : Option OptDict := (h.user[k]?).map h.at

end Zfit.Loss
