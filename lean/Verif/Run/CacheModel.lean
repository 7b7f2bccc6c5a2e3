import Verif.Common.Py
import Mathlib.Data.Nat.Notation

/-!
# Model of the cache of compiled functions

/repo/zfit/z/zextension.py, `FunctionWrapperRegistry`, and /repo/zfit/util/cache.py, `FunctionCacheHolder` and `clear_graph_cache`.

One decorated function `f` with its registry.  `A` are argument tuples, `S` is the state of the python objects the function looks at (what
is not an argument: the norm range of a pdf, the cut of a dataset, ...), `V` are results.  A `tf.function` (external) keeps one trace for
every argument signature; a trace has the state of the time of tracing built in.  `K` are the "immutable representations" of arguments:
different arguments can have the same.
-/

namespace Zfit.Run

open Zfit

/-- The decorated python function: its value for arguments in a state, and whether it refuses to be compiled (`DoNotCompile`). -/
structure Fn (A S V K : Type) where
  run : A → S → Except Err V
  noCompile : A → Bool
  /-- `create_immutable` (cache.py:282-301) -/
  key : A → K

/-- `FunctionCacheHolder`: the representation of the arguments, the identity of its `tf.function`, whether to use it. -/
structure Holder (K : Type) where
  key : K
  graph : ℕ
  doJit : Bool

/-- The registry, the traces inside of the `tf.function`s and the python state. -/
structure World (A S K : Type) where
  /-- `function_cache`, oldest first -/
  cache : List (Holder K)
  cachesize : ℕ
  /-- number of `tf.function`s made so far: the identity of the next one -/
  fresh : ℕ
  /-- traces: `tf.function`, arguments, state when traced -/
  traces : List (ℕ × A × S)
  /-- `func in self.currently_traced` -/
  traced : Bool
  /-- `do_jit` and executing eagerly -/
  jit : Bool
  state : S
  /-- the `_cachers` of the objects among the arguments (a `WeakKeyDictionary`): representation and identity of the holders -/
  cachers : List (K × ℕ)

variable {A S V K : Type} [DecidableEq A] [DecidableEq K]

/-- At import (zextension.py:178-222). -/
def World.init (s : S) : World A S K := ⟨[], 40, 0, [], false, true, s, []⟩

/-- Calling the `tf.function` number `g` (external): an existing trace is used as it is, otherwise the function is traced now. -/
def runGraph (f : Fn A S V K) (w : World A S K) (g : ℕ) (a : A) : World A S K × Except Err V :=
  match w.traces.find? (fun t => t.1 == g && decide (t.2.1 = a)) with
  | some t => (w, f.run a t.2.2)
  | none => match f.run a w.state with
    | .error e => (w, .error e)
    | .ok v => ({ w with traces := w.traces ++ [(g, a, w.state)] }, .ok v)

/-- `register_cacher` (cache.py:120-131): a cacher that equals one that is already registered is not registered. Holders are equal if
the representations are (356-368). -/
def register (cachers : List (K × ℕ)) (k : K) (id : ℕ) : List (K × ℕ) :=
  if cachers.any (fun c => decide (c.1 = k)) then cachers else cachers ++ [(k, id)]

/-- Running with the holder number `i` of the cache (zextension.py:323-349). A function that refuses to be compiled is run as it is, from
now on always for this holder. -/
def runHolder (f : Fn A S V K) (w : World A S K) (i : ℕ) (h : Holder K) (a : A) : World A S K × Except Err V :=
  if !h.doJit then (w, f.run a w.state)
  else if f.noCompile a then ({ w with cache := w.cache.set i { h with doJit := false } }, f.run a w.state)
  else runGraph f w h.graph a

/-- Identity of the holder that is only used to look for an equal one: it is gone after the call. -/
def probe : ℕ := 0

/-- A call of the decorated function (zextension.py:258-350). -/
def call (f : Fn A S V K) (w : World A S K) (a : A) : World A S K × Except Err V :=
  if !w.jit || w.traced then (w, f.run a w.state)
  else
    let k := f.key a
    -- the holder to look for an equal one registers with the objects
    let cachers := register w.cachers k probe
    match w.cache.findIdx? (fun h => decide (h.key = k)) with
    | some i =>
      match w.cache[i]? with
      | some h => runHolder f { w with cachers := cachers.filter (fun c => c.2 != probe) } i h a
      | none => (w, .error .indexError)
    | none =>
      let h : Holder K := ⟨k, w.fresh, true⟩
      let cachers := register cachers k (w.fresh + 1)
      let cache := if w.cachesize ≤ w.cache.length then w.cache.tail else w.cache
      runHolder f { w with cache := cache ++ [h], fresh := w.fresh + 1, cachers := cachers.filter (fun c => c.2 != probe) } cache.length h a

/-- `set_graph_cache_size` (zextension.py:242-252, execution.py:431-452). -/
def setSize (w : World A S K) (size : Option Int) : World A S K × Except Err Unit :=
  match size with
  | some n =>
    if n < 1 then (w, .error .valueError)
    else ({ w with cachesize := n.toNat, cache := w.cache.drop (w.cache.length + 1 - n.toNat) }, .ok ())
  | none => ({ w with cachesize := 40, cache := w.cache.drop (w.cache.length + 1 - 40) }, .ok ())

/-- `clear_graph_cache` (cache.py:377-408). -/
def clear (w : World A S K) : World A S K :=
  { w with traces := w.traces.filter (fun t => !(w.cache.any (fun h => h.graph == t.1))), cache := [] }

/-- A change of an object by a method decorated with `invalidate_graph` (cache.py:171-192), outside of a compiled function. -/
def change (w : World A S K) (s : S) : World A S K := { clear w with state := s }

/-- The same inside of a compiled function (cache.py:184-185): only the registered holders are told, which removes them from the cache
(cache.py:278-280, zextension.py:280-283). -/
def changeInside (w : World A S K) (s : S) : World A S K :=
  { w with cache := w.cache.filter (fun h => !(w.cachers.any (fun c => c.2 == h.graph + 1))), state := s }

/-- What can happen. -/
inductive Op (A S : Type)
  | call (a : A)
  /-- `FunctionCacheHolder(...)` raises: the function stays marked as being traced (zextension.py:271-292 is not protected) -/
  | callBroken
  | setSize (n : Option Int)
  | clear
  | change (s : S)
  | changeInside (s : S)
  | setJit (b : Bool)

/-- One operation; a call has a result. -/
def step (f : Fn A S V K) (w : World A S K) : Op A S → World A S K × Option (Except Err V)
  | .call a => ((call f w a).1, some (call f w a).2)
  | .callBroken => (if !w.jit || w.traced then w else { w with traced := true }, none)
  | .setSize n => ((setSize w n).1, none)
  | .clear => (clear w, none)
  | .change s => (change w s, none)
  | .changeInside s => (changeInside w s, none)
  | .setJit b => ({ w with jit := b }, none)

/-- A history. -/
def runOps (f : Fn A S V K) (w : World A S K) : List (Op A S) → World A S K
  | [] => w
  | op :: ops => runOps f (step f w op).1 ops

end Zfit.Run
