import Verif.Param.Graph
import Mathlib.Analysis.SpecialFunctions.Complex.Arg

/-!
# Model of composed and complex parameters

/repo/zfit/core/parameter.py: `BaseComposedParameter`, `ComposedParameter`, `ComplexParameter`.

* The values of the independent parameters are a store `ρ : Nat → ℝ` (by identity).  A parameter that is handed to a
  composed one is its value as a function of the store together with its tree of dependencies (area `Param`); it is real.
* A Python function is its signature and what it returns; a call that the signature does not allow is a `TypeError`.
  Keyword-only and positional-only arguments are left out.
* `params` has to be given (leaving it out ends in an error elsewhere, parameter.py:1058-1059).
-/

namespace Zfit.Args

open Zfit Zfit.Par

/-- The values of the independent parameters. -/
abbrev Store := Nat → ℝ

/-- A (real) parameter: what it depends on and its value. -/
structure Pr where
  tree : Par
  val : Store → ℝ

/-- What a function gets as one argument: a parameter, or a tuple or `dict` of them. -/
inductive Arg
  | one (v : ℝ)
  | tuple (vs : List ℝ)
  | dict (d : List (String × ℝ))

/-- The arguments of a call, positional and by keyword. -/
structure Call where
  pos : List Arg
  kw : List (String × Arg)

/-- The signature of a Python function: the names of the arguments and whether they have a default, then the names of
`*args` and `**kwargs`, if there are any. -/
structure Sig where
  args : List (String × Bool)
  star : Option String := none
  starstar : Option String := none

/-- `signature(func).parameters` (the names). -/
def Sig.names (s : Sig) : List String := s.args.map (·.1) ++ s.star.toList ++ s.starstar.toList

/-- Whether Python binds the arguments of a call: no positional argument too many, no unknown keyword and none for an
argument that is already bound, no argument missing. -/
def Sig.accepts (s : Sig) (c : Call) : Bool :=
  (decide (c.pos.length ≤ s.args.length) || s.star.isSome)
    && c.kw.all (fun k => decide (k.1 ∈ (s.args.drop c.pos.length).map (·.1))
      || (s.starstar.isSome && !decide (k.1 ∈ s.args.map (·.1))))
    && (s.args.drop c.pos.length).all (fun a => a.2 || decide (a.1 ∈ c.kw.map (·.1)))

/-- A Python function with values in `R`; it may raise, and it may also read the parameters on its own (a closure). -/
structure Func (R : Type) where
  sig : Sig
  body : Store → Call → Except Err R

/-- Calling it. -/
def Func.call {R : Type} (f : Func R) (ρ : Store) (c : Call) : Except Err R :=
  if f.sig.accepts c then f.body ρ c else .error .typeError

/-- The argument `params` of `ComposedParameter` after `convert_to_container` (parameter.py:1050-1051): a mapping, `None`,
or a list (also for a single parameter). -/
inductive Given
  | dict (d : List (String × Pr))
  | list (l : List Pr)
  | none

/-- `len(params)`. -/
def Given.length : Given → Nat
  | .dict d => d.length
  | .list l => l.length
  | .none => 0

/-- How `func` is called: with the parameters as single arguments, with all of them in one argument, or with nothing. -/
inductive Style
  | unpack
  | whole
  | nothing
  deriving DecidableEq

/-- The decision on `unpack_params` (parameter.py:1066-1082).  (The first case there, a single parameter, never occurs, as
the container was made before.) -/
def decideStyle (unpack : Option Bool) (s : Sig) (n : Nat) : Except Err Style :=
  match unpack with
  | some true => .ok .unpack
  | some false => .ok .whole
  | Option.none =>
    if (s.names.length = 1 ∧ 1 < n) ∨ "params" ∈ s.names then .ok .whole
    else if n ≤ s.names.length then .ok .unpack
    else if s.names.length = 0 then .ok .nothing
    else .error .valueError

/-- A composed parameter: the mapping `params` and the function of it that gives the value (`stratified_fn`). -/
structure Comp (R : Type) where
  id : Nat
  name : String
  params : List (String × Pr)
  value : Store → Except Err R

/-- The keys `param_0`, `param_1`, … (parameter.py:1112). -/
def numbered (l : List Pr) : List (String × Pr) :=
  (List.range l.length).zip l |>.map (fun p => ("param_" ++ toString p.1, p.2))

/-- The call of `func` for a mapping (parameter.py:1086-1100). -/
def dictCall (st : Style) (ρ : Store) (d : List (String × Pr)) : Call :=
  match st with
  | .nothing => ⟨[], []⟩
  | .unpack => ⟨[], d.map (fun p => (p.1, .one (p.2.val ρ)))⟩
  | .whole => ⟨[.dict (d.map (fun p => (p.1, p.2.val ρ)))], []⟩

/-- The call of `func` for a list (parameter.py:1101-1122). -/
def listCall (st : Style) (ρ : Store) (d : List (String × Pr)) : Call :=
  match st with
  | .nothing => ⟨[], []⟩
  | .unpack => ⟨d.map (fun p => .one (p.2.val ρ)), []⟩
  | .whole => ⟨[.tuple (d.map (fun p => p.2.val ρ))], []⟩

/-- `ComposedParameter(name, func, params=..., unpack_params=...)` (parameter.py:988-1127) with `value`
(parameter.py:856-858). -/
def compose {R : Type} (id : Nat) (name : String) (f : Func R) (given : Given) (unpack : Option Bool) :
    Except Err (Comp R) :=
  match given with
  | .none => .error .breakingApiChange
  | .dict d => do
    let st ← decideStyle unpack f.sig d.length
    pure ⟨id, name, d, fun ρ => f.call ρ (dictCall st ρ d)⟩
  | .list l => do
    let st ← decideStyle unpack f.sig l.length
    let d := if st = .nothing then [] else numbered l
    pure ⟨id, name, d, fun ρ => f.call ρ (listCall st ρ d)⟩

/-- The tree of dependencies of a composed parameter. -/
def Comp.tree {R : Type} (c : Comp R) : Par := .node ⟨c.id, c.name, .composed, false⟩ (c.params.map (·.2.tree))

/-- `composed.get_params(floating=None)`: the independent parameters that it says it depends on. -/
def Comp.indeps {R : Type} (c : Comp R) : List Leaf := Par.indeps none c.tree

/-! ### Complex parameters -/

/-- A number that is converted to a parameter, or a parameter. -/
inductive Num
  | num (v : ℝ)
  | param (p : Pr)

/-- `convert_to_parameter(value, name=..., prefer_constant=...)` (parameter.py:1381-1456) of a real number or a
parameter; a new free parameter has its own place in the store (`fresh`), where its value is that of the store. -/
def Num.toParam (n : Num) (fresh : Nat) (name : String) (preferConstant : Bool) : Pr :=
  match n with
  | .param p => p
  | .num v =>
    if preferConstant then ⟨.node ⟨fresh, name, .const, false⟩ [], fun _ => v⟩
    else ⟨.node ⟨fresh, name, .indep, true⟩ [], fun ρ => ρ fresh⟩

/-- The function in `from_cartesian` (parameter.py:1243). -/
noncomputable def cartesianFn : Func ℂ where
  sig := ⟨[("_real", false), ("_imag", false)], none, none⟩
  body := fun _ c => match c.pos with
    | [.one x, .one y] => .ok ⟨x, y⟩
    | _ => .error .typeError

/-- The function in `from_polar` (parameter.py:1276). -/
noncomputable def polarFn : Func ℂ where
  sig := ⟨[("_mod", false), ("_arg", false)], none, none⟩
  body := fun _ c => match c.pos with
    | [.one m, .one a] => .ok ⟨m * Real.cos a, m * Real.sin a⟩
    | _ => .error .typeError

/-- `ComplexParameter.from_cartesian(name, real, imag, floating)` (parameter.py:1218-1249).  `id` is the identity of the
new parameter, `id + 1` and `id + 2` those of the parts, if these are new. -/
noncomputable def fromCartesian (id : Nat) (name : String) (re im : Num) (floating : Bool := true) :
    Except Err (Comp ℂ) :=
  compose id name cartesianFn
    (.list [re.toParam (id + 1) (name ++ "_real") (!floating), im.toParam (id + 2) (name ++ "_imag") (!floating)])
    none

/-- `ComplexParameter.from_polar(name, mod, arg, floating)` (parameter.py:1251-1282). -/
noncomputable def fromPolar (id : Nat) (name : String) (mod arg : Num) (floating : Bool := true) :
    Except Err (Comp ℂ) :=
  compose id name polarFn
    (.list [mod.toParam (id + 1) (name ++ "_mod") (!floating), arg.toParam (id + 2) (name ++ "_arg") (!floating)])
    none

/-- An independent parameter as an object: its value is what is stored. -/
def ofLeaf (l : Leaf) : Pr := ⟨.node l [], fun ρ => ρ l.id⟩

/-- `ComplexParameter.conj` (parameter.py:1284-1298); `id` is the identity of the new parameter. -/
noncomputable def Comp.conj (c : Comp ℂ) (id : Nat) : Except Err (Comp ℂ) :=
  compose id (c.name ++ "_conj") ⟨⟨[], none, none⟩, fun ρ _ => (c.value ρ).map (starRingEnd ℂ)⟩
    (.list (c.indeps.map ofLeaf)) none

/-- The properties `real`, `imag`, `mod` and `arg` (parameter.py:1300-1318). -/
noncomputable def Comp.real (c : Comp ℂ) (ρ : Store) : Except Err ℝ := (c.value ρ).map Complex.re
/-- See `Comp.real`. -/
noncomputable def Comp.imag (c : Comp ℂ) (ρ : Store) : Except Err ℝ := (c.value ρ).map Complex.im
/-- See `Comp.real`. -/
noncomputable def Comp.mod (c : Comp ℂ) (ρ : Store) : Except Err ℝ := (c.value ρ).map (fun z => ‖z‖)
/-- See `Comp.real`. -/
noncomputable def Comp.arg (c : Comp ℂ) (ρ : Store) : Except Err ℝ := (c.value ρ).map Complex.arg

end Zfit.Args
