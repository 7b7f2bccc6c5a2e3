import Verif.Run.ModeModel

/-!
# Model of what the environment variables do when zfit is imported

/repo/zfit/__init__.py: `_maybe_disable_warnings` (55-75) and `_maybe_disable_jit` (116-139).
-/

namespace Zfit.Run

open Zfit

/-- The environment: the text of a variable, if it is set. -/
abbrev Env := String → Option String

/-- A warning: the name of the variable that is called deprecated, or the notice that warnings of TensorFlow are not shown. -/
inductive EnvWarn
  | deprecated (var : String)
  | tfSuppressed
  deriving DecidableEq, Repr

/-- What the import leaves: the warnings given, whether warnings of TensorFlow are suppressed, the run state and the exception. -/
structure Imported where
  warnings : List EnvWarn
  tfQuiet : Bool
  state : RS
  error : Option Err

/-- `_maybe_disable_warnings` (__init__.py:55-75): warnings given, whether the warnings of TensorFlow are suppressed. -/
def maybeDisableWarnings (env : Env) : List EnvWarn × Bool :=
  match env "ZFIT_DISABLE_TF_WARNINGS" with
  | none => ([.tfSuppressed], true)
  | some s => if s = "0" then ([], false) else ([], true)

/-- `arg is not None and not int(arg)`; `parse` is Python's `int` of a text, `none` a `ValueError`. -/
def saysOff (parse : String → Option Int) : Option String → Except Err Bool
  | none => .ok false
  | some s =>
    match parse s with
    | none => .error .valueError
    | some n => .ok (decide (n = 0))

/-- `if ...: run.set_graph_mode(False)`. -/
def offIf (r : Except Err Bool) (s : RS) : RS × Option Err :=
  match r with
  | .error e => (s, some e)
  | .ok true => setGraph .off true s
  | .ok false => (s, none)

/-- The warnings of `_maybe_disable_jit` (__init__.py:119-132). -/
def jitWarnings (env : Env) : List EnvWarn :=
  (if (env "ZFIT_MODE_GRAPH").isSome then [.deprecated "ZFIT_MODE_GRAPH"] else []) ++
  (if (env "ZFIT_DO_JIT").isSome && (env "ZFIT_EXPERIMENTAL_DO_JIT").isNone then [.deprecated "ZFIT_EXPERIMENTAL_DO_JIT"] else [])

/-- `_maybe_disable_jit` (__init__.py:133-139): the effect. -/
def maybeDisableJit (parse : String → Option Int) (env : Env) (s : RS) : RS × Option Err :=
  let arg := match env "ZFIT_DO_JIT" with
    | none => env "ZFIT_EXPERIMENTAL_DO_JIT"
    | some a => some a
  match offIf (saysOff parse arg) s with
  | (s', some e) => (s', some e)
  | (s', none) => offIf (saysOff parse (env "ZFIT_GRAPH_MODE")) s'

/-- `import zfit` (__init__.py:78, 144) as far as it depends on the environment; `s` is the run state that the modules imported before leave. -/
def importZfit (parse : String → Option Int) (env : Env) (s : RS) : Imported :=
  let w := maybeDisableWarnings env
  let r := maybeDisableJit parse env s
  ⟨w.1 ++ jitWarnings env, w.2, r.1, r.2⟩

end Zfit.Run
