import Verif.Common.Py
import Mathlib.Data.Nat.Notation

/-!
# Model of the run modes and of the CPU pool

/repo/zfit/util/execution.py `RunManager`, /repo/zfit/util/graph.py `JIT`, /repo/zfit/util/temporary.py `TemporarilySet`.

Kinds of decorated functions (`"model"`, `"loss"`, ...) are numbers; `"model"` is 1, the only one that is not compiled by default.
-/

namespace Zfit.Run

open Zfit

/-- The argument of `set_graph_mode` (execution.py:248-262): `True`, `False`, `"auto"`, a dictionary, anything else. -/
inductive Mode
  | on
  | off
  | auto
  | dict (d : List (ℕ × Bool))
  | bad
deriving DecidableEq

/-- The run state: `run._mode["graph"]`, `FunctionWrapperRegistry.do_jit_types`, the flag of `tf.config.run_functions_eagerly`,
`run._mode["autograd"]` and `settings.options.numerical_grad`. -/
structure RS where
  graph : Mode
  jit : ℕ → Option Bool
  eager : Bool
  autograd : Bool
  numGrad : Bool

/-- `_DEFAULT_DO_JIT_TYPES` (z/zextension.py:165-176): `None`, model, loss, sample, model_sampling, zfit_tensor, tensor. -/
def defaultJit (k : ℕ) : Option Bool := if k = 1 then some false else if k < 7 then some true else none

/-- `JIT._set_all` (util/graph.py:9-18). -/
def setAll (e : Bool) (jit : ℕ → Option Bool) : ℕ → Option Bool := fun k => (jit k).map fun _ => e

/-- `JIT._set_default` (util/graph.py:20-35): unknown kinds get the default of the `defaultdict`, `True`. -/
def setDefault (jit : ℕ → Option Bool) : ℕ → Option Bool := fun k =>
  match defaultJit k with
  | some b => some b
  | none => (jit k).map fun _ => true

/-- `dict.update` with the user's dictionary (util/graph.py:37-40). -/
def update (d : List (ℕ × Bool)) (jit : ℕ → Option Bool) : ℕ → Option Bool :=
  d.foldl (fun jit kv => fun k => if k = kv.1 then some kv.2 else jit k) jit

/-- `_set_graph_mode` (execution.py:347-370): the flag of the backend is set before the mode is checked. -/
def setGraph (m : Mode) (backend : Bool) (s : RS) : RS × Option Err :=
  let s := if backend then { s with eager := decide (m = .off) } else s
  match m with
  | .on => ({ s with jit := setAll true s.jit, graph := m }, none)
  | .off => ({ s with jit := setAll false s.jit, graph := m }, none)
  | .auto => ({ s with jit := setDefault s.jit, graph := m }, none)
  | .dict d => ({ s with jit := update d s.jit, graph := m }, none)
  | .bad => (s, some .valueError)

/-- `_set_autograd_mode` (execution.py:340-345). -/
def setAuto (v : Bool) (s : RS) : RS := { s with numGrad := !v, autograd := v }

/-- `bool(run.get_graph_mode())`. -/
def Mode.truthy : Mode → Bool
  | .off => false
  | .dict d => !d.isEmpty
  | _ => true

/-- Decorating a function of a new kind (z/zextension.py:218-221). -/
def newKind (k : ℕ) (s : RS) : RS :=
  match s.jit k with
  | some _ => s
  | none => { s with jit := fun i => if i = k then some s.graph.truthy else s.jit i }

/-- User code: modes set permanently or in `with` blocks, new kinds of functions, exceptions raised and caught. -/
inductive Code
  | nop
  | raise (e : Err)
  | seq (p q : Code)
  | tryExcept (p q : Code)
  | setGraph (m : Mode) (backend : Bool)
  | setAuto (v : Bool)
  | register (k : ℕ)
  | withGraph (m : Mode) (backend : Bool) (body : Code)
  | withAuto (v : Bool) (body : Code)

/-- Running user code; the `with` blocks are `TemporarilySet` (util/temporary.py:46-59): the old value is read, the new one set and, however
the body ends, the old one is set again; an exception of the restoring setter replaces the one of the body. -/
def exec : Code → RS → RS × Option Err
  | .nop, s => (s, none)
  | .raise e, s => (s, some e)
  | .seq p q, s =>
    match exec p s with
    | (s', some e) => (s', some e)
    | (s', none) => exec q s'
  | .tryExcept p q, s =>
    match exec p s with
    | (s', some _) => exec q s'
    | (s', none) => (s', none)
  | .setGraph m b, s => setGraph m b s
  | .setAuto v, s => (setAuto v s, none)
  | .register k, s => (newKind k s, none)
  | .withGraph m b body, s =>
    match setGraph m b s with
    | (s', some e) => (s', some e)
    | (s', none) =>
      match exec body s' with
      | (s'', e) =>
        match setGraph s.graph b s'' with
        | (s3, some e') => (s3, some e')
        | (s3, none) => (s3, e)
  | .withAuto v body, s =>
    match exec body (setAuto v s) with
    | (s', e) => (setAuto s.autograd s', e)

/-! ## CPUs -/

/-- The pool `run._cpu` and the CPUs held by the blocks that are running, with the number of the block. -/
structure Pool where
  cpu : List ℕ
  held : List (ℕ × List ℕ)

/-- What can happen: a block is entered, left normally or by an exception; blocks of different threads may interleave in any order. -/
inductive CpuOp
  | enter (id : ℕ) (maxCpu : Int)
  | leave (id : ℕ)
  | leaveExc (id : ℕ)

/-- The number of CPUs taken (execution.py:113-118). -/
def wanted (maxCpu : Int) (n : ℕ) : ℕ :=
  let m := if maxCpu < 0 then max ((n : Int) + 1 + maxCpu) 0 else maxCpu
  min m.toNat n

/-- `self._cpu[-n:]` and `self._cpu[:-n]` (execution.py:120-121) with Python's meaning of `-0`: everything, and nothing. -/
def takeLast (l : List ℕ) (n : ℕ) : List ℕ × List ℕ :=
  if n = 0 then (l, []) else (l.drop (l.length - n), l.take (l.length - n))

/-- `max_cpu` after line 114. -/
def isNone (maxCpu : Int) (n : ℕ) : Bool :=
  (if maxCpu < 0 then max ((n : Int) + 1 + maxCpu) 0 else maxCpu) == 0

/-- `aquire_cpu` (execution.py:110-125). Without `try/finally` the code after `yield` is not run when the body raises. -/
def cpuStep (p : Pool) : CpuOp → Pool
  | .enter id maxCpu =>
    if isNone maxCpu p.cpu.length then { p with held := (id, []) :: p.held }
    else
      let (c, r) := takeLast p.cpu (wanted maxCpu p.cpu.length)
      { cpu := r, held := (id, c) :: p.held }
  | .leave id =>
    match p.held.find? (fun h => h.1 == id) with
    | some h => { cpu := p.cpu ++ h.2, held := p.held.eraseP (fun h => h.1 == id) }
    | none => p
  | .leaveExc id => { p with held := p.held.eraseP (fun h => h.1 == id) }

end Zfit.Run
