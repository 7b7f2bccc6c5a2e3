import Mathlib.Analysis.SpecialFunctions.Log.Basic
import Mathlib.Analysis.SpecialFunctions.Exp

/-!
# Model of the automatic derivatives

/repo/zfit/z/math.py: `autodiff_gradient` (188-203), `autodiff_value_gradient` (237-262), `autodiff_hessian` (270-286),
`automatic_value_gradient_hessian` (289-351); /repo/zfit/core/parameter.py: `Parameter.value` (508-514);
/repo/zfit/models/cache.py: `get_value` (22-43).

A function is the graph of the operations that TensorFlow records when it is called: parameters, constants, sums, products,
elementary functions, and values of a cached PDF, whose derivative raises.  The rules of TensorFlow: going backwards every
operation hands on an expression to its arguments, what reaches a parameter is added up, and a source that nothing reaches has
the gradient `None`.  The expressions that are handed on are recorded as well if there is an outer tape.  Real numbers instead
of floats.  Of the two ways to compute the jacobian (with and without vectorisation, 335-349) only the result is modelled.
-/

namespace Zfit.Tape

/-- How a derivative can fail. -/
inductive Fail where
  /-- `AnalyticGradientNotAvailable` (cache.py:34-39). -/
  | notAvailable
  /-- A list with a `None` cannot be converted to a tensor (math.py:261, 329, 338). -/
  | noneInList
  /-- `ValueError`: no parameters, or neither a function nor its gradient (math.py:308-313). -/
  | valueError
deriving DecidableEq

/-- Elementary functions. -/
inductive Fn where
  | exp
  | log
  | inv
deriving DecidableEq

/-- Their values. -/
noncomputable def Fn.eval : Fn → ℝ → ℝ
  | .exp, v => Real.exp v
  | .log, v => Real.log v
  | .inv, v => v⁻¹

/-- The graph of the operations; parameters by number. -/
inductive Expr where
  | par (i : ℕ)
  | const (c : ℝ)
  | add (a b : Expr)
  | mul (a b : Expr)
  | fn (f : Fn) (a : Expr)
  /-- `get_value` (cache.py:22-43): the value of `a`, possibly from the cache.  As in graph mode, where both branches of the
  condition are traced, so that the parameters of `a` are variables of the custom gradient whether or not the cache is used. -/
  | cached (a : Expr)

/-- The value, for the values of the parameters. -/
noncomputable def Expr.eval : Expr → (ℕ → ℝ) → ℝ
  | .par i, x => x i
  | .const c, _ => c
  | .add a b, x => a.eval x + b.eval x
  | .mul a b, x => a.eval x * b.eval x
  | .fn f a, x => f.eval (a.eval x)
  | .cached a, x => a.eval x

/-- Whether a parameter is read. -/
def Expr.reads : Expr → ℕ → Bool
  | .par i, j => i == j
  | .const _, _ => false
  | .add a b, j => a.reads j || b.reads j
  | .mul a b, j => a.reads j || b.reads j
  | .fn _ a, j => a.reads j
  | .cached a, j => a.reads j

/-- TensorFlow's derivative of an elementary function, as an expression in the argument. -/
noncomputable def Fn.deriv : Fn → Expr → Expr
  | .exp, a => .fn .exp a
  | .log, a => .fn .inv a
  | .inv, a => .mul (.const (-1)) (.mul (.fn .inv a) (.fn .inv a))

/-- What an operation with the derivative `dy` hands on to the watched parameters. -/
noncomputable def pull (ps : List ℕ) : Expr → Expr → Except Fail (List (ℕ × Expr))
  | .par i, dy => .ok (if i ∈ ps then [(i, dy)] else [])
  | .const _, _ => .ok []
  | .add a b, dy =>
    match pull ps a dy with
    | .error e => .error e
    | .ok l => match pull ps b dy with
      | .error e => .error e
      | .ok r => .ok (l ++ r)
  | .mul a b, dy =>
    match pull ps a (.mul dy b) with
    | .error e => .error e
    | .ok l => match pull ps b (.mul dy a) with
      | .error e => .error e
      | .ok r => .ok (l ++ r)
  | .fn f a, dy => pull ps a (.mul dy (f.deriv a))
  | .cached a, _ => if ps.any a.reads then .error .notAvailable else .ok []

/-- What reaches the parameter `i`, added up; `None` if nothing does. -/
noncomputable def gather (l : List (ℕ × Expr)) (i : ℕ) : Option Expr :=
  match l.filter (fun q => q.1 == i) with
  | [] => none
  | l => some ((l.map (·.2)).foldr .add (.const 0))

/-- `tape.gradient(e, sources=ps)`. -/
noncomputable def tapeGradient (ps : List ℕ) (e : Expr) : Except Fail (List (Option Expr)) :=
  (pull ps e (.const 1)).map fun l => ps.map (gather l)

/-- A list without `None`. -/
def allSome {α : Type} : List (Option α) → Except Fail (List α)
  | [] => .ok []
  | none :: _ => .error .noneInList
  | some a :: l => (allSome l).map (a :: ·)

/-- The recorded gradient: `autodiff_value_gradient` (math.py:251-262) up to the evaluation. -/
noncomputable def gradientExprs (ps : List ℕ) (e : Expr) : Except Fail (List Expr) :=
  match tapeGradient ps e with
  | .error e => .error e
  | .ok l => allSome l

/-- The rows of `tape.jacobian(gradients, sources)` for one source: `None` if no gradient depends on it, else zero for those
that do not. -/
def column (rows : List (Option ℝ)) : Option (List ℝ) := if rows.all Option.isNone then none else some (rows.map (·.getD 0))

/-- A parameter: the limits and the value of the variable. -/
structure Par where
  lower : Option ℝ
  upper : Option ℝ
  raw : ℝ

/-- `Parameter.value` (parameter.py:508-514): clipped to the limits if there are any; the derivative with respect to the variable
is one (`clip_by_value_preserve_gradient`), so that the gradient with respect to the variable is the one with respect to the
value. -/
noncomputable def Par.value (p : Par) : ℝ :=
  let v := match p.upper with
    | some u => min p.raw u
    | none => p.raw
  match p.lower with
  | some l => max v l
  | none => v

/-- The values of the parameters. -/
noncomputable def values (s : ℕ → Par) (i : ℕ) : ℝ := (s i).value

/-- `autodiff_value_gradient` (math.py:237-262). -/
noncomputable def valueGradient (e : Expr) (ps : List ℕ) (s : ℕ → Par) : Except Fail (ℝ × List ℝ) :=
  (gradientExprs ps e).map fun gs => (e.eval (values s), gs.map (·.eval (values s)))

/-- `autodiff_gradient` (math.py:188-203). -/
noncomputable def gradient (e : Expr) (ps : List ℕ) (s : ℕ → Par) : Except Fail (List ℝ) := (valueGradient e ps s).map (·.2)

/-- What `hessian="diag"` gives (math.py:326-329): each gradient with respect to its own parameter. -/
noncomputable def diagExprs (ps : List ℕ) (gs : List Expr) : Except Fail (List Expr) :=
  match (List.zip ps gs).mapM (fun q => tapeGradient [q.1] q.2) with
  | .error e => .error e
  | .ok l => allSome (l.map fun r => (r[0]?).getD none)

/-- The full Hessian (math.py:333-349): for each source the derivatives of all gradients. -/
noncomputable def fullHessian (ps : List ℕ) (gs : List Expr) (x : ℕ → ℝ) : Except Fail (List (List ℝ)) :=
  match gs.mapM (fun g => pull ps g (.const 1)) with
  | .error e => .error e
  | .ok ls => allSome (ps.map fun j => column (ls.map fun l => (gather l j).map (·.eval x)))

/-- The Hessian that is returned: a matrix, or only its diagonal. -/
inductive Hess where
  | full (rows : List (List ℝ))
  | diag (entries : List ℝ)

/-- `automatic_value_gradient_hessian` (math.py:289-351) with a function; `diag` is `hessian == "diag"`. -/
noncomputable def valueGradientHessian (func : Option Expr) (ps : Option (List ℕ)) (diag : Bool) (s : ℕ → Par) :
    Except Fail (ℝ × List ℝ × Hess) :=
  match ps, func with
  | none, _ => .error .valueError
  | _, none => .error .valueError
  | some ps, some e =>
    match gradientExprs ps e with
    | .error err => .error err
    | .ok gs =>
      if diag then
        (diagExprs ps gs).map fun ds => (e.eval (values s), gs.map (·.eval (values s)), .diag (ds.map (·.eval (values s))))
      else
        (fullHessian ps gs (values s)).map fun h => (e.eval (values s), gs.map (·.eval (values s)), .full h)

/-- `autodiff_hessian` (math.py:270-286). -/
noncomputable def hessian (e : Expr) (ps : List ℕ) (diag : Bool) (s : ℕ → Par) : Except Fail Hess :=
  (valueGradientHessian (some e) (some ps) diag s).map (·.2.2)

end Zfit.Tape
