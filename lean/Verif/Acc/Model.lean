import Verif.Common.Py
import Mathlib.Data.Int.Notation
import Mathlib.Data.List.Sort

/-!
# Model of a `FitResult` as a container, and of freezing it

/repo/zfit/minimizers/fitresult.py: `NameToParamGetitem` (277-299), `ListWithKeys` (1646-1665), `ValuesHolder`, `ParamHolder`
(1668-1672), `Approximations.gradient` and `freeze` (117-135, 173-174), `covariance` of what was calculated before (1448-1463) and
`FitResult.freeze` (1508-1539).

A parameter is an object with a name; parameters are equal if they are the same object (parameter.py:331-335).  A dictionary is an
association list in the order of insertion.  Slices of `values`, the entries of `info` and printing are not modelled.
-/

namespace Zfit.Acc

open Zfit

/-- A parameter: which object it is, and its name. -/
structure Par where
  id : ℕ
  name : String
  deriving DecidableEq, Repr

/-- A key of the dictionaries of a result: a parameter or, once the result is frozen, a name. -/
inductive Key
  | par (p : Par)
  | name (s : String)
  deriving DecidableEq, Repr

/-- `param.name if isinstance(param, ZfitParameter) else param` (fitresult.py:284). -/
def Key.label : Key → String
  | .par p => p.name
  | .name s => s

/-- What is put in the brackets: a parameter, a name or a position. -/
inductive Item
  | par (p : Par)
  | name (s : String)
  | pos (i : ℤ)
  deriving DecidableEq, Repr

/-- A key, used as an item. -/
def Key.item : Key → Item
  | .par p => .par p
  | .name s => .name s

/-- The name that is looked for: a parameter is replaced by its name (fitresult.py:281-282); a position equals no name. -/
def Item.label? : Item → Option String
  | .par p => some p.name
  | .name s => some s
  | .pos _ => none

/-- The item that is handed on to the container below (fitresult.py:281-288): the first key of that name if there is one, else the
name. -/
def resolve (keys : List Key) (it : Item) : Item :=
  match it.label? with
  | none => it
  | some s =>
    match keys.find? (fun k => k.label = s) with
    | some k => k.item
    | none => .name s

variable {E V : Type}

/-- `UserDict.__getitem__`: no key is a position. -/
def dictItem (d : List (Key × E)) : Item → Except Err E
  | .par p => (dictGet d (.par p)).elim (.error .keyError) .ok
  | .name s => (dictGet d (.name s)).elim (.error .keyError) .ok
  | .pos _ => .error .keyError

/-- `result.params[item]` (fitresult.py:280-288 on a `UserDict`). -/
def paramsGet (d : List (Key × E)) (it : Item) : Except Err E := dictItem d (resolve (d.map (·.1)) it)

/-- `l[i]` for a Python list and any integer. -/
def listGet (l : List V) (i : ℤ) : Except Err V :=
  if 0 ≤ i then pyGet l i.toNat
  else if 0 ≤ (l.length : ℤ) + i then pyGet l ((l.length : ℤ) + i).toNat
  else .error .indexError

/-- What `result.values` is made of (`ListWithKeys`, 1649-1651): a list of its own, and the dictionary it was given (the same
object, not a copy). -/
structure Values (V : Type) where
  data : List V
  dict : List (Key × V)
  deriving DecidableEq, Repr

/-- `ValuesHolder(d)`. -/
def Values.of (d : List (Key × V)) : Values V := ⟨d.map (·.2), d⟩

/-- `ListWithKeys.__getitem__` (1653-1656): only parameters are looked up in the dictionary. -/
def Values.below (h : Values V) : Item → Except Err V
  | .par p => (dictGet h.dict (.par p)).elim (.error .keyError) .ok
  | .name _ => .error .typeError
  | .pos i => listGet h.data i

/-- `result.values[item]`. -/
def Values.get (h : Values V) (it : Item) : Except Err V := h.below (resolve (h.dict.map (·.1)) it)

/-- `item in …` (fitresult.py:290-299). -/
def contains {A : Type} : Except Err A → Except Err Bool
  | .ok _ => .ok true
  | .error .keyError => .ok false
  | .error _ => .error .runtimeError

/-! ## The result -/

/-- An attribute that is an object, its name after freezing, or `None`. -/
inductive Attr
  | object
  | name
  | none
  deriving DecidableEq, Repr

/-- `x.name`. -/
def Attr.toName : Attr → Except Err Attr
  | .object => .ok .name
  | _ => .error .attributeError

/-- A `FitResult`: what is kept of the parameters (`E`: the value and the errors), the values, the covariances that were calculated
(by method), the parameters and the gradient of the approximations, and the objects it refers to. -/
structure Result (E V : Type) where
  loss : Attr
  minimizer : Attr
  criterion : Attr
  approxParams : List Key
  gradient : Option (List V)
  covs : List (String × List ((Key × Key) × V))
  values : Values V
  params : List (Key × E)
  deriving DecidableEq

/-- `FitResult.__init__` (fitresult.py:443-455): `entry v` is `{"value": v}`; the approximations are those of the parameters of the
fit. -/
def Result.make (entry : V → E) (params : List (Par × V)) (criterion : Attr) (gradient : Option (List V)) : Result E V :=
  { loss := .object, minimizer := .object, criterion := criterion
    approxParams := params.map fun pv => .par pv.1
    gradient := gradient
    covs := []
    values := .of (params.map fun pv => (.par pv.1, pv.2))
    params := params.map fun pv => (.par pv.1, entry pv.2) }

/-- `self.params[param][name] = error` (`_cache_errors`, 1268-1270): the entry is looked up and changed in place; `f` is the change. -/
def Result.note (r : Result E V) (it : Item) (f : E → E) : Result E V × Except Err Unit :=
  match paramsGet r.params it with
  | .error e => (r, .error e)
  | .ok _ =>
    ({ r with params := r.params.map fun ke =>
        if ke.1.item = resolve (r.params.map (·.1)) it then (ke.1, f ke.2) else ke }, .ok ())

/-- `covariance(params, method, as_dict=True)` (1448-1463).  `compute` is the calculation of a covariance that is not there yet; on a frozen
result it fails, as there is no loss (`_covariance`, 1473, and the methods). -/
def Result.covariance (r : Result E V) (compute : String → Except Err (List ((Key × Key) × V))) (ask : Option (List Key)) (method : String) :
    Result E V × Except Err (List ((Key × Key) × Option V)) :=
  let asked := ask.getD (r.params.map (·.1))
  let answer (d : List ((Key × Key) × V)) :=
    (asked.flatMap fun a => asked.map fun b => (a, b)).map fun k => (k, dictGet d k)
  match dictGet r.covs method with
  | some d => (r, .ok (answer d))
  | none =>
    if r.loss = .object then
      match compute method with
      | .ok d => ({ r with covs := dictSet r.covs method d }, .ok (answer d))
      | .error e => (r, .error e)
    else (r, .error .attributeError)

/-- `Approximations.gradient(params)` (127-135). -/
def gradientOf (have_ : List Key) (grad : Option (List V)) (ask : Option (List Key)) : Except Err (Option (List V)) :=
  match grad with
  | none => .ok none
  | some g =>
    match ask with
    | none => .ok (some g)
    | some ps =>
      let mapped := (List.range have_.length).filter fun i => (have_[i]?.map fun p => decide (p ∈ ps)).getD false
      let key (i : ℕ) : ℕ := (have_[i]?.map fun p => ps.idxOf p).getD 0
      let indices := mapped.insertionSort fun i j => key i ≤ key j
      (indices.mapM fun i => pyGet g i).map some

/-- `[p.name for p in self.params]` (174): names have no name. -/
def toNames : List Key → Except Err (List Key)
  | [] => .ok []
  | .par p :: ks => (toNames ks).map (.name p.name :: ·)
  | .name _ :: _ => .error .attributeError

/-- The keys of one covariance replaced by names (1520-1522): of equal keys the last stays. -/
def nameKeys (d : List ((Key × Key) × V)) : List ((Key × Key) × V) :=
  d.foldl (fun acc kv => dictSet acc (.name kv.1.1.label, .name kv.1.2.label) kv.2) []

/-- `{p.name: self.values[p] for p in self.params}` (1523). -/
def nameValues (r : Result E V) : List Key → Except Err (List (Key × V))
  | [] => .ok []
  | k :: ks =>
    match r.values.get k.item, nameValues r ks with
    | .ok v, .ok rest => .ok ((.name k.label, v) :: rest)
    | .error e, _ => .error e
    | _, .error e => .error e

/-- `FitResult.freeze()` (1508-1539); the result as it is left, and the exception.  Of the keys with equal names, which a fit does not
have, the model keeps all. -/
def Result.freeze (r : Result E V) : Result E V × Except Err Unit :=
  match r.loss.toName with
  | .error e => (r, .error e)
  | .ok l =>
    let r1 := { r with loss := l }
    match r1.minimizer.toName with
    | .error e => (r1, .error e)
    | .ok m =>
      let r2 := { r1 with minimizer := m }
      match r2.criterion.toName with
      | .error e => (r2, .error e)
      | .ok c =>
        let r3 := { r2 with criterion := c }
        match toNames r3.approxParams with
        | .error e => (r3, .error e)
        | .ok ps =>
          let r4 := { r3 with approxParams := ps, covs := r3.covs.map fun kd => (kd.1, nameKeys kd.2) }
          match nameValues r4 (r4.params.map (·.1)) with
          | .error e => (r4, .error e)
          | .ok vs => ({ r4 with values := .of vs, params := r4.params.map fun ke => (.name ke.1.label, ke.2) }, .ok ())

/-- The uses of a result that are modelled. -/
inductive Op (E V : Type)
  | note (it : Item) (f : E → E)
  | covariance (compute : String → Except Err (List ((Key × Key) × V))) (ask : Option (List Key)) (method : String)
  | freeze

/-- The result after one use, whether or not it raised an exception. -/
def Result.after (r : Result E V) : Op E V → Result E V
  | .note it f => (r.note it f).1
  | .covariance compute ask method => (r.covariance compute ask method).1
  | .freeze => r.freeze.1

/-- The result after a history. -/
def Result.run (r : Result E V) (ops : List (Op E V)) : Result E V := ops.foldl Result.after r

end Zfit.Acc
