import Verif.Param.Assign
import Mathlib.Algebra.BigOperators.Group.List.Basic
import Mathlib.Algebra.BigOperators.Ring.List

/-! Model of the numerical derivatives in zfit/z/math.py (`numerical_gradient`, `numerical_hessian`, …) and of the derivatives of a
loss in zfit/core/loss.py (`gradient`, `value_gradient`, `hessian`, `value_gradient_hessian`). -/

namespace Zfit.Diff

open Zfit Zfit.Par

/-! ## zfit/z/math.py -/

/-- The library numdifftools at work: it evaluates the function at a point, decides how to go on by the values seen so far, and in the
end gives a result. An arbitrary tree, so nothing is assumed about the library. -/
inductive Strategy (ρ : Type)
  | done (r : ρ)
  | ask (x : List Rat) (k : Rat → Strategy ρ)

/-- `func()`, without arguments: it reads the parameters and gives a value or raises. -/
abbrev Func := Store → Except Err Rat

/-- The library with `wrapped_func` (math.py 60-62 and 118-121): every evaluation assigns the parameters and calls `func`. The
parameters as they are when it ends, and the result. -/
def drive {ρ : Type} (ps : List Ref) (func : Func) : Strategy ρ → Store → Store × Except Err ρ
  | .done r, s => (s, .ok r)
  | .ask x k, s =>
    match assignValues s (some ps) false (.list x) with
    | (s', some e) => (s', .error e)
    | (s', none) =>
      match func s' with
      | .error e => (s', .error e)
      | .ok v => drive ps func (k v) s'

/-- math.py 64-65 and 124 `param_vals`. -/
def paramVals (ps : List Ref) (s : Store) : List Rat := ps.map fun p => (s p.id).value

/-- math.py 44-80 `numerical_gradient` and 104-150 `numerical_hessian`: `lib` is the library called with the values. -/
def numerical {ρ : Type} (ps : List Ref) (func : Func) (lib : List Rat → Strategy ρ) (s : Store) : Store × Except Err ρ :=
  let vals := paramVals ps s
  match drive ps func (lib vals) s with
  | (s', .error e) => (s', .error e)
  | (s', .ok r) =>
    match assignValues s' (some ps) false (.list vals) with
    | (s'', some e) => (s'', .error e)
    | (s'', none) => (s'', .ok r)

/-- math.py 83-95 `numerical_value_gradient`. -/
def valueGradient {ρ : Type} (ps : List Ref) (func : Option Func) (lib : List Rat → Strategy ρ) (s : Store) : Store × Except Err (Rat × ρ) :=
  match func with
  | none => (s, .error .typeError)
  | some f =>
    match f s with
    | .error e => (s, .error e)
    | .ok v =>
      match numerical ps f lib s with
      | (s', .error e) => (s', .error e)
      | (s', .ok g) => (s', .ok (v, g))

/-- math.py 101-102 `numerical_value_gradients`, the deprecated name: it calls itself. The number is the depth of recursion that the
interpreter still allows; afterwards it raises. -/
def valueGradientsAlias {ρ : Type} : Nat → Store → Store × Except Err ρ
  | 0, s => (s, .error .runtimeError)
  | n + 1, s => valueGradientsAlias n s

/-- math.py 153-180 `numerical_value_gradient_hessian`. `params = none` is `None`; of `gradient` only matters whether it is given. -/
def valueGradientHessian {ρ σ : Type} (ps : Option (List Ref)) (func : Option Func) (gradientGiven : Bool) (libG : List Rat → Strategy ρ)
    (libH : List Rat → Strategy σ) (s : Store) : Store × Except Err (Rat × ρ × σ) :=
  match ps with
  | none => (s, .error .valueError)
  | some ps =>
    if func.isNone && !gradientGiven then (s, .error .valueError)
    else
      match valueGradient ps func libG s with
      | (s', .error e) => (s', .error e)
      | (s', .ok (v, g)) =>
        match func with
        | none => (s', .error .typeError)
        | some f =>
          match numerical ps f libH s' with
          | (s'', .error e) => (s'', .error e)
          | (s'', .ok h) => (s'', .ok (v, g, h))

/-- The central difference estimate of numdifftools (`method="central"`) of the derivative with respect to the parameter `j`: a
combination with the weights `w` of the difference quotients with the steps `h`; `steps` are the pairs `(h, w)`. -/
def central (j : Nat) (steps : List (Rat × Rat)) (x : List Rat) : Strategy Rat :=
  go steps 0
where
  /-- The steps one after the other. -/
  go : List (Rat × Rat) → Rat → Strategy Rat
    | [], acc => .done acc
    | (h, w) :: rest, acc => .ask (x.modify j (· + h)) fun up => .ask (x.modify j (· - h)) fun down => go rest (acc + w * ((up - down) / (2 * h)))

/-! ## zfit/core/loss.py -/

/-- What a loss knows: the options and which of the methods a subclass overrides. `γ` and `η` are gradients and Hessians. -/
structure Loss (γ η : Type) where
  /-- The value, `full` or not. -/
  value : Bool → Rat
  /-- loss.py 274-278, the options. -/
  numgrad : Bool
  numhess : Bool
  /-- `numerical_gradient`, `numerical_hessian` of the value, `full` or not. -/
  numG : Bool → Except Err γ
  numH : Bool → Except Err η
  /-- The automatic ones, which also raise if a parameter does not support them (`_check_assert_autograd`). -/
  autoG : Bool → Except Err γ
  autoH : Bool → Except Err η
  /-- `_gradient`, if overridden, of the argument `numgrad`. -/
  ownG : Option (Bool → γ)
  /-- `_value_gradient`, of `numgrad` and `full`. -/
  ownVG : Option (Bool → Bool → Rat × γ)
  ownH : Option (Bool → η)
  ownVGH : Option (Bool → Bool → Rat × γ × η)

variable {γ η : Type}

/-- The derivatives by the given method. -/
def Loss.engineG (l : Loss γ η) (num full : Bool) : Except Err γ := if num then l.numG full else l.autoG full

/-- The derivatives by the given method. -/
def Loss.engineH (l : Loss γ η) (num full : Bool) : Except Err η := if num then l.numH full else l.autoH full

/-- loss.py 599-653 `gradient`, `_call_gradient`, `_fallback_gradient`. -/
def Loss.gradient (l : Loss γ η) (numgrad : Option Bool) : Except Err γ :=
  let num := numgrad.getD l.numgrad
  match l.ownG with
  | some g => .ok (g num)
  | none =>
    match l.ownVG with
    | some vg => .ok (vg num false).2
    | none => l.engineG num false

/-- loss.py 655-719 `value_gradient`, `_call_value_gradient`, `_fallback_value_gradient`; the argument `numgrad` is not used (line
688). -/
def Loss.valueGradient (l : Loss γ η) (full : Bool) (_numgrad : Option Bool) : Except Err (Rat × γ) :=
  let num := l.numgrad
  match l.ownVG with
  | some vg => .ok (vg num full)
  | none =>
    match l.ownG with
    | some g => .ok (l.value full, g num)
    | none => (l.engineG num full).map fun g => (l.value full, g)

/-- loss.py 721-768 `hessian`, `_call_hessian`, `_fallback_hessian`. -/
def Loss.hessian (l : Loss γ η) (numgrad : Option Bool) : Except Err η :=
  let num := numgrad.getD l.numgrad
  match l.ownH with
  | some h => .ok (h num)
  | none =>
    match l.ownVGH with
    | some vgh => .ok (vgh num false).2.2
    | none => l.engineH num false

/-- loss.py 770-836 `value_gradient_hessian`, `_call_value_gradient_hessian`, `_fallback_value_gradient_hessian`. -/
def Loss.valueGradientHessian (l : Loss γ η) (full : Bool) (numgrad : Option Bool) : Except Err (Rat × γ × η) :=
  let num := numgrad.getD l.numhess
  match l.ownVGH with
  | some vgh => .ok (vgh num full)
  | none =>
    match l.ownH with
    | some h => (l.valueGradient full (some num)).map fun vg => (vg.1, vg.2, h num)
    | none => do
      let g ← l.engineG num full
      let h ← l.engineH num full
      .ok (l.value full, g, h)

/-! ### `SimpleLoss` -/

/-- The arguments `gradient` and `hessian` of `SimpleLoss`: not given, a string, or a function. -/
inductive How (δ : Type)
  | default
  | str (s : String)
  | fn (f : δ)

/-- loss.py 1368-1391: the method and the function of an argument. -/
def How.resolve {δ : Type} : How δ → Except Err (Bool × Option δ)
  | .default => .ok (true, none)
  | .str s => if s = "num" then .ok (true, none) else if s = "zfit" then .ok (false, none) else .error .valueError
  | .fn f => .ok (true, some f)

/-- loss.py 1302-1480 `SimpleLoss.__init__`, `_gradient`, `_hessian`: the derivatives of a `SimpleLoss`. Its `_get_params` raises if
asked for the parameters without automatic gradient (1437-1439), which `_check_assert_autograd` always does. -/
def simpleLoss (value : Rat) (numG : Except Err γ) (numH : Except Err η) (gradient : How γ) (hessian : How η) : Except Err (Loss γ η) := do
  let g ← gradient.resolve
  let h ← hessian.resolve
  .ok { value := fun _ => value, numgrad := g.1, numhess := h.1, numG := fun _ => numG, numH := fun _ => numH,
        autoG := fun _ => .error .workInProgress, autoH := fun _ => .error .workInProgress,
        ownG := g.2.map fun f _ => f, ownVG := none, ownH := h.2.map fun f _ => f, ownVGH := none }

/-- loss.py 1561-1574 `SimpleLoss.create_new`: `gradient` and `hessian` are not passed on. -/
def simpleCreateNew (value : Rat) (numG : Except Err γ) (numH : Except Err η) (_gradient : How γ) (_hessian : How η) : Except Err (Loss γ η) :=
  simpleLoss value numG numH .default .default

end Zfit.Diff
