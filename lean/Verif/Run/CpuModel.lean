import Verif.Common.Py
import Mathlib.Data.Nat.Notation

/-!
# Model of the number of CPUs and threads

`RunManager.set_n_cpu` and `set_cpus_explicit` (/repo/zfit/util/execution.py:66-108).

TensorFlow (external) keeps the two numbers of threads; setting one to another value once something was computed raises a `RuntimeError`,
setting it to the value it has does not.  The names of the CPUs in `_cpu` are modelled by their numbers, `_n_cpu`, which nothing reads, is
left out.
-/

namespace Zfit.Run

open Zfit

/-- `_cpu`, `_strict`, the threads TensorFlow uses within and between operations (0: TensorFlow decides) and whether TensorFlow has already
computed something. -/
structure Cpus where
  cpu : List ℕ
  strict : Bool
  intra : ℕ
  inter : ℕ
  started : Bool
  deriving DecidableEq, Repr

/-- What is given as `n_cpu`: "auto", an integer, anything else. -/
inductive NCpu
  | auto
  | int (n : Int)
  | other
  deriving DecidableEq, Repr

/-- `tf.config.threading.set_intra_op_parallelism_threads` (external). -/
def Cpus.setIntra (c : Cpus) (n : ℕ) : Except Err Cpus :=
  if c.intra = n then .ok c else if c.started then .error .runtimeError else .ok { c with intra := n }

/-- `tf.config.threading.set_inter_op_parallelism_threads` (external). -/
def Cpus.setInter (c : Cpus) (n : ℕ) : Except Err Cpus :=
  if c.inter = n then .ok c else if c.started then .error .runtimeError else .ok { c with inter := n }

/-- `set_cpus_explicit` (91-108): the state afterwards and what is raised. -/
def Cpus.setExplicit (c : Cpus) (intra inter : ℕ) : Cpus × Option Err :=
  match c.setIntra intra with
  | .error e => (c, some e)
  | .ok c' =>
    match c'.setInter inter with
    | .error e => (c', some e)
    | .ok c'' => (c'', none)

/-- The numbers of the CPUs asked for (77-83): `available` is `sorted(os.sched_getaffinity(0))`; for anything else `cpu` is not bound. -/
def wantedCpus (available : List ℕ) : NCpu → Option (List ℕ)
  | .auto => some available
  | .int n => some (List.range n.toNat)
  | .other => none

/-- `set_n_cpu` (70-89). `_strict` is compared and not changed. -/
def Cpus.setN (available : List ℕ) (c : Cpus) (n : NCpu) (strict : Bool) : Cpus × Option Err :=
  match wantedCpus available n with
  | none => (c, some .unboundLocalError)
  | some cpu =>
    let c' := { c with cpu := cpu }
    if xor strict c'.strict then c'.setExplicit (if strict then 1 else 2) cpu.length else (c', none)

/-- `RunManager.__init__` (23-44) with the default "auto". -/
def Cpus.init (available : List ℕ) : Cpus := (Cpus.setN available ⟨[], false, 0, 0, false⟩ .auto false).1

/-- What the user does: the two setters and computing something. -/
inductive CpusOp
  | setN (n : NCpu) (strict : Bool)
  | explicit (intra inter : ℕ)
  | compute
  deriving DecidableEq, Repr

/-- One operation. -/
def Cpus.step (available : List ℕ) (c : Cpus) : CpusOp → Cpus × Option Err
  | .setN n strict => c.setN available n strict
  | .explicit intra inter => c.setExplicit intra inter
  | .compute => ({ c with started := true }, none)

/-- A history; what is raised is caught by the user. -/
def Cpus.run (available : List ℕ) (c : Cpus) (ops : List CpusOp) : Cpus := ops.foldl (fun c op => (c.step available op).1) c

/-- `n_cpu` (66-68). -/
def Cpus.nCpu (c : Cpus) : ℕ := c.cpu.length

end Zfit.Run
