import Mathlib.Data.Nat.Notation
import Mathlib.Data.Int.Notation

/-! Model of zfit/dill.py: `dumps`, `dump`, `loads` and `load` with their retries.

The functions of the package dill are a parameter (`World`): what the k-th call of `dill.dump` writes and raises and what the
k-th call of `dill.load` makes of the bytes it finds is arbitrary, since it depends on the garbage collector and the cached
graphs. The state counts the calls. The call of the garbage collector has no other effect here. -/

namespace Zfit.Dill

/-- How `dill.dump` and `dill.dumps` fail, as far as zfit/dill.py 53-72 distinguishes it. -/
inductive DumpRaise
  /-- `TypeError` naming a FuncGraph or a weak object that has gone away -/
  | funcGraph
  /-- `TypeError` naming the ipyopt problem -/
  | ipyopt
  /-- any other `TypeError` -/
  | otherType
  /-- `RuntimeError`: dictionary changed size during iteration -/
  | dictChanged
  /-- any other `RuntimeError` -/
  | otherRuntime
  /-- any other exception -/
  | other
deriving DecidableEq

/-- How `dill.load` and `dill.loads` fail, as far as zfit/dill.py 221-240 distinguishes it. -/
inductive LoadRaise
  /-- `io.UnsupportedOperation` with "read" in its message -/
  | unsupportedRead
  /-- any other `io.UnsupportedOperation` -/
  | unsupportedOther
  /-- any other exception -/
  | other
deriving DecidableEq

/-- The exceptions a user sees. -/
inductive Raised
  | valueError
  | typeError
  | runtimeError
  | recursionError
  | ipyoptPicklingError
  | zfitDillLoadError
  | zfitDillDumpError
  | unsupportedOperation
  | unboundLocalError
  | other
deriving DecidableEq

/-- The package dill: the bytes written by the k-th call of `dump` and what it raises afterwards, if anything; what the k-th
call of `load` makes of the bytes in front of it: the object and the number of bytes read, or an exception. `limit` is
Python's limit of recursive calls. -/
structure World (Byte Obj : Type) where
  dumpCall : ℕ → List Byte × Option DumpRaise
  loadCall : ℕ → List Byte → Except LoadRaise (Obj × ℕ)
  limit : ℕ

/-- Numbers of calls of `dill.dump(s)`, of `dill.load(s)` and of `run.clear_graph_cache` so far, and the file. -/
structure St (Byte : Type) where
  dumped : ℕ
  loaded : ℕ
  cleared : ℕ
  content : List Byte
  pos : ℕ
deriving DecidableEq

variable {Byte Obj α : Type}

/-- zfit/dill.py 24-81 `__retry_with_gc`, with the depth of recursion that is left. `r` is `max_retries`. -/
def retryGc (call : St Byte → St Byte × Except DumpRaise α) : ℕ → ℤ → St Byte → St Byte × Except Raised α
  | 0, _, s => (s, .error .recursionError)
  | depth + 1, r, s =>
    match call s with
    | (s, .ok a) => (s, .ok a)
    | (s, .error .funcGraph) => if r ≤ 0 then (s, .error .runtimeError) else retryGc call depth (r - 1) s
    | (s, .error .ipyopt) => (s, .error .ipyoptPicklingError)
    | (s, .error .otherType) => (s, .error .typeError)
    | (s, .error .dictChanged) => retryGc call depth (r - 1) s
    | (s, .error .otherRuntime) => (s, .error .runtimeError)
    | (s, .error .other) => (s, .error .other)

/-- zfit/dill.py 218-243, the loop of `__retry_with_graphclear` with the number of further tries left. After an
`UnsupportedOperation` that is swallowed in the last turn, `out` is unbound. -/
def graphClear (call : St Byte → St Byte × Except LoadRaise α) : ℕ → St Byte → St Byte × Except Raised α
  | left, s =>
    match call s with
    | (s, .ok a) => (s, .ok a)
    | (s, .error .unsupportedRead) => (s, .error .unsupportedOperation)
    | (s, .error .unsupportedOther) =>
      match left with
      | 0 => (s, .error .unboundLocalError)
      | left + 1 => graphClear call left s
    | (s, .error .other) =>
      match left with
      | 0 => (s, .error .zfitDillLoadError)
      | left + 1 => graphClear call left { s with cleared := s.cleared + 1 }

/-- `dill.loads(bytes)`. -/
def callLoads (w : World Byte Obj) (bytes : List Byte) (s : St Byte) : St Byte × Except LoadRaise Obj :=
  ({ s with loaded := s.loaded + 1 }, (w.loadCall s.loaded bytes).map (·.1))

/-- zfit/dill.py 246-269 `loads` for `max_retries` not negative (264-267 raise `ValueError` otherwise, see `loadsUser`). -/
def loads (w : World Byte Obj) (r : ℕ) (bytes : List Byte) (s : St Byte) : St Byte × Except Raised Obj :=
  graphClear (callLoads w bytes) r s

/-- `file.seek(p)` followed by `dill.load(file)` (zfit/dill.py 219-222). A load that fails leaves the position anywhere; here
it stays where it was, since every use is preceded by `seek`. -/
def callLoad (w : World Byte Obj) (p : ℕ) (s : St Byte) : St Byte × Except LoadRaise Obj :=
  match w.loadCall s.loaded (s.content.drop p) with
  | .ok (o, k) => ({ s with loaded := s.loaded + 1, pos := p + k }, .ok o)
  | .error e => ({ s with loaded := s.loaded + 1, pos := p }, .error e)

/-- zfit/dill.py 272-294 `load` for `max_retries` not negative; the initial position is the current one (216-217). -/
def load (w : World Byte Obj) (r : ℕ) (s : St Byte) : St Byte × Except Raised Obj := graphClear (callLoad w s.pos) r s

/-- `dill.dumps(obj)`: what is written before an exception is lost. -/
def callDumps (w : World Byte Obj) (s : St Byte) : St Byte × Except DumpRaise (List Byte) :=
  match w.dumpCall s.dumped with
  | (bytes, none) => ({ s with dumped := s.dumped + 1 }, .ok bytes)
  | (_, some e) => ({ s with dumped := s.dumped + 1 }, .error e)

/-- `file.write(bytes)`: overwrites what is there. -/
def write (s : St Byte) (bytes : List Byte) : St Byte :=
  { s with content := s.content.take s.pos ++ bytes ++ s.content.drop (s.pos + bytes.length), pos := s.pos + bytes.length }

/-- `dill.dump(obj, file)`: what is written before an exception stays in the file. -/
def callDump (w : World Byte Obj) (s : St Byte) : St Byte × Except DumpRaise Unit :=
  match w.dumpCall s.dumped with
  | (bytes, none) => (write { s with dumped := s.dumped + 1 } bytes, .ok ())
  | (bytes, some e) => (write { s with dumped := s.dumped + 1 } bytes, .error e)

/-- zfit/dill.py 120-136, the loop of `dumps` with the number of further tries left. -/
def dumpsLoop (w : World Byte Obj) (r : ℕ) (verify : Bool) : ℕ → Bool → St Byte → St Byte × Except Raised (List Byte)
  | left, redo, s =>
    match retryGc (callDumps w) w.limit r s with
    | (s, .error e) => (s, .error e)
    | (s, .ok out) =>
      if verify then
        match loads w r out s with
        | (s, .ok _) =>
          if redo then
            match left with
            | 0 => (s, .ok out)
            | left + 1 => dumpsLoop w r verify left redo s
          else (s, .ok out)
        | (s, .error .zfitDillLoadError) =>
          match left with
          | 0 => (s, .error .zfitDillDumpError)
          | left + 1 => dumpsLoop w r verify left true { s with cleared := s.cleared + 1 }
        | (s, .error e) => (s, .error e)
      else if redo then
        match left with
        | 0 => (s, .ok out)
        | left + 1 => dumpsLoop w r verify left redo s
      else (s, .ok out)

/-- `max_retries` and `verify` as given by the user (zfit/dill.py 112-118, 177-183, 263-267). -/
def retries (m : Option ℤ) : Except Raised ℕ :=
  match m with
  | none => .ok 2
  | some m => if m < 0 then .error .valueError else .ok m.toNat

/-- zfit/dill.py 84-136 `dumps`. -/
def dumps (w : World Byte Obj) (maxRetries : Option ℤ) (verify : Option Bool) (s : St Byte) :
    St Byte × Except Raised (List Byte) :=
  match retries maxRetries with
  | .error e => (s, .error e)
  | .ok r => dumpsLoop w r (verify.getD true) r false s

/-- zfit/dill.py 186-207, the loop of `dump` with the number of further tries left; `p` is the initial position. -/
def dumpLoop (w : World Byte Obj) (r : ℕ) (verify : Bool) (p : ℕ) : ℕ → Bool → St Byte → St Byte × Except Raised Unit
  | left, redo, s =>
    match retryGc (callDump w) w.limit r s with
    | (s, .error e) => (s, .error e)
    | (s, .ok _) =>
      if verify then
        match load w r { s with pos := p } with
        | (s', .ok _) => ({ s' with pos := s.pos }, .ok ())
        | (s', .error .zfitDillLoadError) =>
          match left with
          | 0 => (s', .error .zfitDillDumpError)
          | left + 1 => dumpLoop w r verify p left true { s' with cleared := s'.cleared + 1, pos := p }
        | (s', .error e) => (s', .error e)
      else if redo then
        match left with
        | 0 => (s, .ok ())
        | left + 1 => dumpLoop w r verify p left redo s
      else (s, .ok ())

/-- zfit/dill.py 142-207 `dump`. -/
def dump (w : World Byte Obj) (maxRetries : Option ℤ) (verify : Option Bool) (s : St Byte) : St Byte × Except Raised Unit :=
  match retries maxRetries with
  | .error e => (s, .error e)
  | .ok r => dumpLoop w r (verify.getD true) s.pos r false s

/-- zfit/dill.py 246-269 `loads`. -/
def loadsUser (w : World Byte Obj) (maxRetries : Option ℤ) (bytes : List Byte) (s : St Byte) : St Byte × Except Raised Obj :=
  match retries maxRetries with
  | .error e => (s, .error e)
  | .ok r => loads w r bytes s

/-- zfit/dill.py 272-294 `load`. -/
def loadUser (w : World Byte Obj) (maxRetries : Option ℤ) (s : St Byte) : St Byte × Except Raised Obj :=
  match retries maxRetries with
  | .error e => (s, .error e)
  | .ok r => load w r s

end Zfit.Dill
