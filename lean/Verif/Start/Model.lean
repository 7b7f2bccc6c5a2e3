import Mathlib.Data.Rat.Defs
import Mathlib.Logic.Function.Basic
import Mathlib.Tactic.Common
import Verif.Param.Graph

/-!
# Model of how a minimisation starts

/repo/zfit/minimizers/baseminimizer.py (`_check_convert_input`, `minimize`), the first lines of `_minimize` of the minimisers,
`assign_values` of /repo/zfit/core/parameter.py, `SimpleLoss.from_any` of /repo/zfit/core/loss.py, and how the options of a SciPy
minimiser are put together (/repo/zfit/minimizers/minimizers_scipy.py).

A parameter is compared as a whole record (identity); values are rationals, limits (which cut a value when it is read) are in area `Param`.
The dictionary of fields (`value`, `lower`, ...) as `params` is in area `Args` (C120, C121) and not modelled here.
-/

namespace Zfit.Start

open Zfit Zfit.Par

/-- The values of all parameters. -/
abbrev Vals := Leaf → ℚ

/-- A loss: the independent parameters it depends on, in the order of `get_params(floating=None)`. -/
structure LossO where
  params : List Leaf

/-- `loss.get_params()` (floating ones). -/
def LossO.free (l : LossO) : List Leaf := l.params.filter (·.floating)

/-- A `FitResult`: its loss and the values of its parameters. -/
structure Res where
  loss : LossO
  params : List (Leaf × ℚ)

/-- The argument `params` of `minimize`. -/
inductive PArg
  | none
  /-- a list, tuple or set of parameters -/
  | objs (l : List Par)
  /-- a list or tuple of numbers and `None` -/
  | values (l : List (Option ℚ))
  /-- an array of NumPy -/
  | array (l : List ℚ)
  /-- a dictionary from parameters to numbers or `None` -/
  | mapping (l : List (Par × Option ℚ))

/-- The argument `loss` of `minimize`. -/
inductive LArg
  | loss (l : LossO)
  | result (r : Res)
  | func

/-- `param.assign(value)` one after the other (parameter.py:1460-1480). -/
def assign (v : Vals) (l : List (Leaf × ℚ)) : Vals := l.foldl (fun v p => Function.update v p.1 p.2) v

/-- `assign_values(params, numbers)` (parameter.py:1483-1509, 1553-1637): all parameters have to be independent. -/
def assignPars (v : Vals) (l : List (Par × ℚ)) : Except Err Vals :=
  if l.all (fun p => p.1.leaf.kind == .indep) then .ok (assign v (l.map (fun p => (p.1.leaf, p.2)))) else .error .parameterNotIndependent

/-- The value of a parameter in a result (parameter.py:1587-1602), with `allow_partial=False`. -/
def Res.get (r : Res) (x : Leaf) : Except Err (Leaf × ℚ) :=
  match dictGet r.params x with
  | some q => .ok (x, q)
  | none => .error .valueError

/-- `assign_values(params, result)`. -/
def assignResult (v : Vals) (ps : List Leaf) (r : Res) : Except Err Vals := do
  let l ← ps.mapM r.get
  assignPars v (l.map (fun p => (.node p.1 [], p.2)))

/-- A parameter without dependencies as an argument. -/
def asPar (x : Leaf) : Par := .node x []

/-- The beginning of `_check_convert_input` (baseminimizer.py:284-291): a result instead of a loss.  With a list of numbers the values set here
are set once more below. -/
def unpackResult (loss : LArg) (params : PArg) (init : Option Res) : PArg × Option Res × List (Par × ℚ) :=
  match loss, params with
  | .result r, .none => (.objs (r.params.map (fun p => asPar p.1)), some r, [])
  | .result r, .array l => (.array l, some r, (r.loss.free.map asPar).zip l)
  | .result r, p => (p, some r, [])
  | _, p => (p, init, [])

/-- A mapping (baseminimizer.py:293-304): the values that are not `None`, and the parameters. -/
def unpackMapping (params : PArg) (toSet : List (Par × ℚ)) : PArg × List (Par × ℚ) :=
  match params with
  | .mapping l => (.objs (l.map (·.1)), l.filterMap (fun p => p.2.map (fun q => (p.1, q))))
  | p => (p, toSet)

/-- A new parameter for a number (parameter.py:1339-1457, `prefer_constant=False`). -/
def freshLeaf (n : Nat) : Leaf := ⟨n, s!"autoparam_{n}", .indep, true⟩

/-- `SimpleLoss.from_any` for a function (baseminimizer.py:306-310, loss.py:1394-1424): new parameters for numbers; `None` is no number. -/
def makeLoss (loss : LArg) (params : PArg) (fresh : Nat) : Except Err LossO :=
  match loss with
  | .loss l => .ok l
  | .result r => .ok r.loss
  | .func =>
    match params with
    | .none => .error .breakingApiChange
    | .objs l => .ok ⟨oset (Par.indepsList none l)⟩
    | .values l => if l.all Option.isSome then .ok ⟨(List.range l.length).map (fun i => freshLeaf (fresh + i))⟩ else .error .valueError
    | .array l => .ok ⟨(List.range l.length).map (fun i => freshLeaf (fresh + i))⟩
    | .mapping l => .ok ⟨oset (Par.indepsList none (l.map (·.1)))⟩

/-- What the parameters are taken from in the end. -/
inductive Source
  | free
  | pars (l : List Par)
  | numbers

/-- Numbers are for the free parameters of the loss, by position (baseminimizer.py:312-321); an empty list counts as a list of numbers. -/
def byPosition (loss : LossO) (l : List (Option ℚ)) : Except Err (Source × List (Par × ℚ)) :=
  if l.length ≠ loss.free.length then .error .valueError
  else .ok (.pars (loss.free.map asPar), ((loss.free.map asPar).zip l).filterMap (fun p => p.2.map (fun q => (p.1, q))))

/-- baseminimizer.py:312-323: what `params` stands for. -/
def resolve (loss : LossO) (params : PArg) (toSet : List (Par × ℚ)) : Except Err (Source × List (Par × ℚ)) :=
  match params with
  | .none => .ok (.free, toSet)
  | .objs [] => byPosition loss []
  | .values l => byPosition loss l
  | .objs l => .ok (.pars l, toSet)
  | .array _ => .ok (.numbers, toSet)
  | .mapping _ => .ok (.free, toSet)

/-- baseminimizer.py:323-347: the given values are set, then the floating independent parameters are collected.  An array cannot be put into a
set (`TypeError`); if values were set for it, its numbers have no `get_params`.  `OrderedSet.union()` without arguments raises. -/
def choose (v : Vals) (loss : LossO) (src : Source) (toSet : List (Par × ℚ)) : Vals × Except Err (List Leaf) :=
  match src with
  | .free => (v, .ok loss.free)
  | .pars l =>
    match assignPars v toSet with
    | .error e => (v, .error e)
    | .ok v' => (v', if l.isEmpty then .error .typeError else .ok (oset (Par.indepsList (some true) l)))
  | .numbers =>
    if toSet.isEmpty then (v, .error .typeError)
    else match assignPars v toSet with
      | .error e => (v, .error e)
      | .ok v' => (v', .error .attributeError)

/-- Those parameters whose values are taken from `init` (baseminimizer.py:350-353): all that were not given by the user. -/
def fromInit (ps : List Leaf) (r : Res) (toSet : List (Par × ℚ)) : List Leaf :=
  (ps.filter (· ∈ r.params.map (·.1))).filter (· ∉ toSet.map (fun p => p.1.leaf))

/-- baseminimizer.py:349-360: values from `init`, and the floating parameters. -/
def finish (v : Vals) (init : Option Res) (toSet : List (Par × ℚ)) (ps : List Leaf) : Vals × Except Err (List Leaf) :=
  let set : Except Err Vals := match init with
    | none => .ok v
    | some r => assignResult v (fromInit ps r toSet) r
  match set with
  | .error e => (v, .error e)
  | .ok v' =>
    let floating := ps.filter (·.floating)
    (v', if floating.isEmpty then .error .runtimeError else .ok floating)

/-- The second half of `_check_convert_input` (baseminimizer.py:323-360). -/
def proceed (v : Vals) (l : LossO) (init : Option Res) (src : Source) (toSet : List (Par × ℚ)) :
    Vals × Except Err (LossO × List Leaf × Option Res) :=
  match choose v l src toSet with
  | (v1, .error e) => (v1, .error e)
  | (v1, .ok ps) =>
    match finish v1 init toSet ps with
    | (v2, .error e) => (v2, .error e)
    | (v2, .ok ps') => (v2, .ok (l, ps', init))

/-- `_check_convert_input` (baseminimizer.py:267-360): the values afterwards (also if an exception is raised), the loss, the parameters and
the result to start from. -/
def convertInput (loss : LArg) (params : PArg) (init : Option Res) (fresh : Nat) (v : Vals) : Vals × Except Err (LossO × List Leaf × Option Res) :=
  let u := unpackResult loss params init
  let m := unpackMapping u.1 u.2.2
  match makeLoss loss m.1 fresh with
  | .error e => (v, .error e)
  | .ok l =>
    match resolve l m.1 m.2 with
    | .error e => (v, .error e)
    | .ok s => proceed v l u.2.1 s.1 s.2

/-- `minimize` up to the point where the algorithm starts: all minimisers first set the values of `init`
(minimizers_scipy.py:209-210, minimizer_nlopt.py:182-183, ipopt.py:236-237, minimizer_minuit.py:171-172, minimizer_lm.py:209-210,
baseminimizer.py:501-503 and 710-711).  The start values are those in the returned state. -/
def start (loss : LArg) (params : PArg) (init : Option Res) (fresh : Nat) (v : Vals) : Vals × Except Err (List Leaf) :=
  match convertInput loss params init fresh v with
  | (v, .error e) => (v, .error e)
  | (v, .ok (_, ps, none)) => (v, .ok ps)
  | (v, .ok (_, ps, some r)) =>
    match assignResult v ps r with
    | .error e => (v, .error e)
    | .ok v' => (v', .ok ps)

/-! ## The options of SciPy minimisers -/

/-- A dictionary of options. -/
abbrev Opts (V : Type) := String → Option V

/-- `info["original"]` of a result, by the minimiser it comes from (fitresult.py:749, 862, 1009). -/
inductive Original (V : Type)
  /-- SciPy: a dictionary, here with its entries `direc` and `final_simplex` -/
  | scipy (direc simplex : Option V)
  /-- iminuit: its object `fmin` -/
  | minuit
  /-- NLopt: a number -/
  | nlopt
  /-- Ipopt: there is no such entry -/
  | ipopt

/-- The initialisers of the SciPy minimisers. -/
inductive Initializer
  /-- minimizers_scipy.py:101-105, and 641-650 (BFGS: nothing is written) -/
  | none
  /-- minimizers_scipy.py:941-949, 1119-1127: the key is `initial_trust_radius` or `initial_tr_radius` -/
  | trust (key : String)
  /-- minimizers_scipy.py:1458-1461 -/
  | scale
  /-- minimizers_scipy.py:1639-1644 -/
  | powell
  /-- minimizers_scipy.py:1917-1922 -/
  | nelderMead
  deriving DecidableEq

/-- `options[key] = value`. -/
def Opts.set {V : Type} (o : Opts V) (k : String) (x : V) : Opts V := Function.update o k (some x)

/-- `if value is not None: options[key] = value`. -/
def Opts.setSome {V : Type} (o : Opts V) (k : String) : Option V → Opts V
  | some x => o.set k x
  | none => o

/-- `init.info["original"].get(key)`: only dictionaries have `get`. -/
def Original.get {V : Type} (direc : Bool) : Original V → Except Err (Option V)
  | .scipy d s => .ok (if direc then d else s)
  | .minuit => .error .attributeError
  | .nlopt => .error .attributeError
  | .ipopt => .error .keyError

/-- The call of the initialiser (minimizers_scipy.py:272-277).  `steps` are the step sizes and their mean.  No result has an entry `tr_radius`, so
that the trust radius is only written if there is no result yet. -/
def runInit {V : Type} (k : Initializer) (o : Opts V) (init : Option (Original V)) (mean steps : V) : Except Err (Opts V) :=
  match k with
  | .none => .ok o
  | .trust key => .ok (if init.isNone then o.set key mean else o)
  | .scale => .ok (o.set "scale" steps)
  | .powell =>
    match init with
    | none => .ok o
    | some r => (r.get true).map (fun d => o.setSome "direc" d)
  | .nelderMead =>
    match init with
    | none => .ok o
    | some r => (r.get false).map (fun d => o.setSome "initial_simplex" d)

/-- One minimisation, but for the minimiser: start, result to start from, budget, verbosity, the internal tolerances, step sizes of each turn, what
SciPy answers to a call, and whether and where the fit goes on.  All are arbitrary. -/
structure Fit (X V : Type) where
  x0 : X
  init : Option (Original V)
  maxiter : Option V
  disp : V
  tols : Nat → List (String × V)
  mean : Nat → V
  steps : Nat → V
  run : X → Opts V → Option V × Option V
  next : Nat → Option X

/-- `options[tol] = val` for all internal tolerances (minimizers_scipy.py:289-290). -/
def writeTols {V : Type} (o : Opts V) (l : List (String × V)) : Opts V := l.foldl (fun o p => o.set p.1 p.2) o

/-- The calls of SciPy (minimizers_scipy.py:271-368), `fuel` turns, beginning with turn `i`: the calls with start and options, the options that
stay in the minimiser, the exception. -/
def turns {X V : Type} (k : Initializer) (f : Fit X V) : Nat → Nat → X → Opts V → Option (Original V) → List (X × Opts V) × Opts V × Option Err
  | 0, _, _, o, _ => ([], o, none)
  | fuel + 1, i, x, o, prelim =>
    match runInit k o prelim (f.mean i) (f.steps i) with
    | .error e => ([], o, some e)
    | .ok o =>
      let o := writeTols o (f.tols i)
      let out := f.run x o
      match f.next i with
      | none => ([(x, o)], o, none)
      | some x' =>
        let r := turns k f fuel (i + 1) x' o (some (.scipy out.1 out.2))
        ((x, o) :: r.1, r.2.1, r.2.2)

/-- `ScipyBaseMinimizer._minimize` (minimizers_scipy.py:207-383), the part that concerns the options (the setters of the verbosity, which write `verbose` or `disp` afresh
each time, are not modelled): `self.minimizer_options.copy()` (217) copies the
outer dictionary only, the options are those of the minimiser and everything is written into them. -/
def scipyMinimize {X V : Type} (k : Initializer) (o : Opts V) (f : Fit X V) : List (X × Opts V) × Opts V × Option Err :=
  turns k f 20 0 f.x0 ((o.setSome "maxiter" f.maxiter).set "disp" f.disp) f.init

/-- The options of a minimiser after some minimisations. -/
def afterFits {X V : Type} (k : Initializer) (o : Opts V) (fs : List (Fit X V)) : Opts V := fs.foldl (fun o f => (scipyMinimize k o f).2.1) o

end Zfit.Start
