import Verif.Run.CacheModel
import Mathlib.Data.List.Basic

/-!
# Properties of the cache of compiled functions

C44 `cache_bounded`, `cache_answers_partial`, `cache_size_rejects`; `object_reset_violated`
-/

namespace Zfit.Run

open Zfit

variable {A S V K : Type} [DecidableEq A] [DecidableEq K]

/-- The invariant: bounded; graphs are older than the counter, pairwise different and all the traces reachable from the cache are of the
current state; nothing is registered with the objects. -/
structure Inv (w : World A S K) : Prop where
  size : 1 ≤ w.cachesize
  bounded : w.cache.length ≤ w.cachesize
  old : ∀ h ∈ w.cache, h.graph < w.fresh
  oldTraces : ∀ t ∈ w.traces, t.1 < w.fresh
  current : ∀ h ∈ w.cache, ∀ t ∈ w.traces, t.1 = h.graph → t.2.2 = w.state
  unregistered : w.cachers = []

theorem register_probe (k : K) : (register [] k probe).filter (fun c => c.2 != probe) = [] := by
  simp [register, probe]

theorem register_twice (k : K) (i : ℕ) : (register (register [] k probe) k i).filter (fun c => c.2 != probe) = [] := by
  simp [register, probe]

theorem runGraph_inv (f : Fn A S V K) (w : World A S K) (h : Inv w) (i : Holder K) (hi : i ∈ w.cache) (a : A) :
    Inv (runGraph f w i.graph a).1 ∧ (runGraph f w i.graph a).2 = f.run a w.state ∧ (runGraph f w i.graph a).1.state = w.state := by
  unfold runGraph
  rcases ht : w.traces.find? (fun t => t.1 == i.graph && decide (t.2.1 = a)) with _ | t <;> simp only [ht]
  · rcases hv : f.run a w.state with e | v <;> simp only [hv]
    · exact ⟨h, trivial, trivial⟩
    · refine ⟨⟨h.size, h.bounded, h.old, ?_, ?_, h.unregistered⟩, trivial, trivial⟩
      · intro t ht'
        rcases List.mem_append.1 ht' with ht' | ht'
        · exact h.oldTraces t ht'
        · rw [List.mem_singleton.1 ht']; exact h.old i hi
      · intro j hj t ht' hg
        rcases List.mem_append.1 ht' with ht' | ht'
        · exact h.current j hj t ht' hg
        · rw [List.mem_singleton.1 ht']
  · have hm := List.mem_of_find?_eq_some ht
    have hp := List.find?_some ht
    simp only [Bool.and_eq_true, beq_iff_eq, decide_eq_true_eq] at hp
    refine ⟨h, ?_, trivial⟩
    rw [h.current i hi t hm hp.1]

theorem runHolder_inv (f : Fn A S V K) (w : World A S K) (h : Inv w) (i : ℕ) (j : Holder K) (hj : w.cache[i]? = some j) (a : A) :
    Inv (runHolder f w i j a).1 ∧ (runHolder f w i j a).2 = f.run a w.state ∧ (runHolder f w i j a).1.state = w.state := by
  have hm : j ∈ w.cache := List.mem_of_getElem? hj
  unfold runHolder
  by_cases h1 : j.doJit = true
  · by_cases h2 : f.noCompile a = true
    · simp only [h1, h2, Bool.not_true, Bool.false_eq_true, if_false, if_true]
      refine ⟨⟨h.size, by simpa using h.bounded, ?_, h.oldTraces, ?_, h.unregistered⟩, trivial, trivial⟩
      · intro x hx
        rcases List.mem_or_eq_of_mem_set hx with hx | rfl
        · exact h.old x hx
        · exact h.old j hm
      · intro x hx t ht hg
        rcases List.mem_or_eq_of_mem_set hx with hx | rfl
        · exact h.current x hx t ht hg
        · exact h.current j hm t ht hg
    · simp only [h1, h2, Bool.not_true, Bool.false_eq_true, if_false]
      exact runGraph_inv f w h j hm a
  · simp only [Bool.not_eq_true] at h1
    simp only [h1, Bool.not_false, if_true]
    exact ⟨h, trivial, trivial⟩

theorem call_inv (f : Fn A S V K) (w : World A S K) (h : Inv w) (a : A) :
    Inv (call f w a).1 ∧ (call f w a).2 = f.run a w.state ∧ (call f w a).1.state = w.state := by
  unfold call
  by_cases h0 : (!w.jit || w.traced) = true
  · rw [if_pos h0]; exact ⟨h, rfl, rfl⟩
  · rw [if_neg h0]
    simp only [h.unregistered, register_probe, register_twice]
    rcases hi : w.cache.findIdx? (fun x => decide (x.key = f.key a)) with _ | i <;> simp only [hi]
    · obtain ⟨cache, hc⟩ : ∃ c, c = if w.cachesize ≤ w.cache.length then w.cache.tail else w.cache := ⟨_, rfl⟩
      rw [← hc]
      have hsub : ∀ x ∈ cache, x ∈ w.cache := by
        intro x hx
        rw [hc] at hx
        split at hx
        · exact List.mem_of_mem_tail hx
        · exact hx
      have hlen : cache.length + 1 ≤ w.cachesize := by
        have h1 := h.size
        have h2 := h.bounded
        rw [hc]
        split
        · rw [List.length_tail]; omega
        · omega
      have hw : Inv { w with cache := cache ++ [⟨f.key a, w.fresh, true⟩], fresh := w.fresh + 1, cachers := [] } := by
        refine ⟨h.size, by simpa using hlen, ?_, ?_, ?_, rfl⟩
        · intro x hx
          rcases List.mem_append.1 hx with hx | hx
          · exact Nat.lt_succ_of_lt (h.old x (hsub x hx))
          · rw [List.mem_singleton.1 hx]; exact Nat.lt_succ_self _
        · intro t ht; exact Nat.lt_succ_of_lt (h.oldTraces t ht)
        · intro x hx t ht hg
          rcases List.mem_append.1 hx with hx | hx
          · exact h.current x (hsub x hx) t ht hg
          · rw [List.mem_singleton.1 hx] at hg
            exact absurd hg (Nat.ne_of_lt (h.oldTraces t ht))
      exact runHolder_inv f _ hw cache.length _ (by simp) a
    · have hlt := List.findIdx?_eq_some_iff_getElem.1 hi
      obtain ⟨hlt, -⟩ := hlt
      have hg : w.cache[i]? = some w.cache[i] := List.getElem?_eq_getElem hlt
      rw [hg]
      have hw : Inv { w with cachers := [] } := ⟨h.size, h.bounded, h.old, h.oldTraces, h.current, rfl⟩
      exact runHolder_inv f _ hw i _ hg a

theorem clear_inv (w : World A S K) (h : Inv w) (s : S) : Inv { clear w with state := s } :=
  ⟨h.size, Nat.zero_le _, by simp [clear], fun t ht => h.oldTraces t (List.mem_filter.1 ht).1, by simp [clear], h.unregistered⟩

/-- The change of an object that is only announced to the registered holders. -/
def Op.inside : Op A S → Prop
  | .changeInside _ => True
  | _ => False

theorem drop_inv (w : World A S K) (h : Inv w) (n : ℕ) (hn : 1 ≤ n) :
    Inv { w with cachesize := n, cache := w.cache.drop (w.cache.length + 1 - n) } :=
  ⟨hn, by simp only [List.length_drop]; omega, fun x hx => h.old x (List.mem_of_mem_drop hx), h.oldTraces,
    fun x hx => h.current x (List.mem_of_mem_drop hx), h.unregistered⟩

theorem step_inv (f : Fn A S V K) (w : World A S K) (h : Inv w) (op : Op A S) (ho : ¬ op.inside) : Inv (step f w op).1 := by
  cases op with
  | call a => exact (call_inv f w h a).1
  | callBroken =>
    simp only [step]
    split
    · exact h
    · exact ⟨h.size, h.bounded, h.old, h.oldTraces, h.current, h.unregistered⟩
  | setSize n =>
    simp only [step, setSize]
    rcases n with _ | n
    · exact drop_inv w h 40 (by omega)
    · by_cases hn : n < 1
      · simp only [hn, if_true]; exact h
      · simp only [hn, if_false]; exact drop_inv w h n.toNat (by omega)
  | clear => exact clear_inv w h w.state
  | change s => exact clear_inv w h s
  | changeInside s => exact absurd trivial ho
  | setJit b => exact ⟨h.size, h.bounded, h.old, h.oldTraces, h.current, h.unregistered⟩

theorem runOps_inv (f : Fn A S V K) (w : World A S K) (h : Inv w) (ops : List (Op A S)) (ho : ∀ op ∈ ops, ¬ op.inside) :
    Inv (runOps f w ops) := by
  induction ops generalizing w with
  | nil => exact h
  | cons op ops ih =>
    exact ih _ (step_inv f w h op (ho op List.mem_cons_self)) (fun o hx => ho o (List.mem_cons_of_mem _ hx))

theorem init_inv (s : S) : Inv (World.init s : World A S K) :=
  ⟨by simp [World.init], by simp [World.init], by simp [World.init], by simp [World.init], by simp [World.init], rfl⟩

/-- The size and the bound, without any condition on the changes. -/
theorem bounded_inv (f : Fn A S V K) (w : World A S K) (h : 1 ≤ w.cachesize ∧ w.cache.length ≤ w.cachesize) (op : Op A S) :
    1 ≤ (step f w op).1.cachesize ∧ (step f w op).1.cache.length ≤ (step f w op).1.cachesize := by
  have hgraph : ∀ (w : World A S K) g a, (runGraph f w g a).1.cachesize = w.cachesize ∧ (runGraph f w g a).1.cache = w.cache := by
    intro w g a
    unfold runGraph
    split
    · exact ⟨rfl, rfl⟩
    · split <;> exact ⟨rfl, rfl⟩
  have hholder : ∀ (w : World A S K) i j a, (runHolder f w i j a).1.cachesize = w.cachesize
      ∧ (runHolder f w i j a).1.cache.length = w.cache.length := by
    intro w i j a
    unfold runHolder
    split
    · exact ⟨rfl, rfl⟩
    · split
      · simp
      · obtain ⟨a, b⟩ := hgraph w j.graph a
        exact ⟨a, by rw [b]⟩
  cases op with
  | call a =>
    simp only [step, call]
    split
    · exact h
    · split
      · split
        · rename_i i _ _ j _
          obtain ⟨a1, a2⟩ := hholder { w with cachers := (register w.cachers (f.key a) probe).filter (fun c => c.2 != probe) } i j a
          rw [a1, a2]; exact h
        · exact h
      · refine ⟨by rw [(hholder _ _ _ _).1]; exact h.1, ?_⟩
        rw [(hholder _ _ _ _).1, (hholder _ _ _ _).2]
        simp only [List.length_append, List.length_singleton]
        split
        · rw [List.length_tail]; omega
        · omega
  | callBroken => simp only [step]; split <;> exact h
  | setSize n =>
    simp only [step, setSize]
    rcases n with _ | n
    · simp only [List.length_drop]; omega
    · by_cases hn : n < 1
      · simp only [hn, if_true]; exact h
      · simp only [hn, if_false, List.length_drop]; omega
  | clear => exact ⟨h.1, Nat.zero_le _⟩
  | change s => exact ⟨h.1, Nat.zero_le _⟩
  | changeInside s => exact ⟨h.1, Nat.le_trans (List.length_filter_le _ _) h.2⟩
  | setJit b => exact h

/-- After every history of calls, changes, changes of the size, ... the cache holds at most as many compiled functions as its size. -/
theorem cache_bounded (f : Fn A S V K) (s : S) (ops : List (Op A S)) :
    (runOps f (World.init s) ops).cache.length ≤ (runOps f (World.init s) ops).cachesize := by
  have key : ∀ (w : World A S K), 1 ≤ w.cachesize ∧ w.cache.length ≤ w.cachesize →
      1 ≤ (runOps f w ops).cachesize ∧ (runOps f w ops).cache.length ≤ (runOps f w ops).cachesize := by
    induction ops with
    | nil => intro w h; exact h
    | cons op ops ih => intro w h; exact ih _ (bounded_inv f w h op)
  exact (key _ ⟨by simp [World.init], by simp [World.init]⟩).2

/-- The current state: that of the last change. -/
def stateOf (s : S) : List (Op A S) → S
  | [] => s
  | .change t :: ops => stateOf t ops
  | .changeInside t :: ops => stateOf t ops
  | _ :: ops => stateOf s ops

/-- After every history of calls and announced changes (outside of compiled functions), a call with whatever arguments returns what the python
function returns for these arguments in the current state: never the result for other arguments, never one of an outdated state. Missing
from the full claim: the cases of `object_reset_violated`. -/
theorem cache_answers_partial (f : Fn A S V K) (s : S) (ops : List (Op A S)) (ho : ∀ op ∈ ops, ¬ op.inside) (a : A) :
    (call f (runOps f (World.init s) ops) a).2 = f.run a (stateOf s ops) := by
  have hst : ∀ (w : World A S K), Inv w → (runOps f w ops).state = stateOf w.state ops := by
    induction ops with
    | nil => intro w _; rfl
    | cons op ops ih =>
      intro w hw
      have h1 := ih (fun o hx => ho o (List.mem_cons_of_mem _ hx)) (step f w op).1 (step_inv f w hw op (ho op List.mem_cons_self))
      rw [runOps, h1]
      have hnot := ho op List.mem_cons_self
      cases op with
      | call a => simp only [step, stateOf, (call_inv f w hw a).2.2]
      | callBroken => simp only [step, stateOf]; split <;> rfl
      | setSize n =>
        simp only [step, setSize, stateOf]
        rcases n with _ | n
        · rfl
        · by_cases hn : n < 1
          · simp only [hn, if_true]
          · simp only [hn, if_false]
      | clear => rfl
      | change t => rfl
      | changeInside t => exact absurd trivial hnot
      | setJit b => rfl
  rw [(call_inv f _ (runOps_inv f _ (init_inv s) ops ho) a).2.1, hst _ (init_inv s)]
  rfl

/-- A call that fails while its arguments are looked at leaves the function marked as being traced, for good: whatever happens afterwards, every
call runs the python function and nothing is compiled, traced or kept. -/
theorem broken_call_disables (f : Fn A S V K) (w : World A S K) (hj : w.jit = true) (ops : List (Op A S)) (a : A) :
    let w' := runOps f (step f w .callBroken).1 ops
    w'.traced = true ∧ call f w' a = (w', f.run a w'.state) := by
  have h0 : (step f w .callBroken).1.traced = true := by
    cases ht : w.traced <;> simp [step, hj, ht]
  have hstep : ∀ (u : World A S K) (op : Op A S), u.traced = true → (step f u op).1.traced = true := by
    intro u op hu
    cases op with
    | call b => simp [step, call, hu]
    | callBroken => simp [step, hu]
    | setSize n =>
      rcases n with _ | n
      · simpa [step, setSize] using hu
      · by_cases hn : n < 1 <;> simp [step, setSize, hn, hu]
    | clear => simpa [step, clear] using hu
    | change s => simpa [step, change, clear] using hu
    | changeInside s => simpa [step, changeInside] using hu
    | setJit b => simpa [step] using hu
  have hall : ∀ (u : World A S K), u.traced = true → (runOps f u ops).traced = true := by
    induction ops with
    | nil => exact fun u hu => hu
    | cons op ops ih => exact fun u hu => ih _ (hstep u op hu)
  have := hall _ h0
  refine ⟨this, ?_⟩
  simp [call, this]

/-- Sizes below one are rejected and change nothing. -/
theorem cache_size_rejects (w : World A S K) (n : Int) (h : n < 1) : setSize w (some n) = (w, .error .valueError) := by
  simp [setSize, h]

/-- The full property fails: a change announced only to the registered holders (what happens inside of a compiled function) never reaches
the cache, as the holder in the cache is never registered: whatever the function, the next call gives the result of the old state. -/
theorem object_reset_violated (f : Fn A S V K) (a : A) (s s' : S) (v : V) (hc : f.noCompile a = false) (hv : f.run a s = .ok v) :
    (call f (runOps f (World.init s) [.call a, .changeInside s']) a).2 = .ok v := by
  simp [runOps, step, call, World.init, changeInside, register, probe, runHolder, hc, runGraph, hv]

/-- Arguments with the same representation, sizes, eviction: a function of a number and a state. -/
def exFn : Fn ℕ ℕ ℕ Unit := ⟨fun a s => .ok (10 * a + s), fun a => a == 7, fun _ => ()⟩

example : (call exFn (runOps exFn (World.init 1) [.call 3, .call 4, .change 2, .call 3, .setSize (some 1), .call 7]) 3).2 = .ok 32 := by
  decide

example : (call exFn (runOps exFn (World.init 1) [.call 3, .changeInside 2]) 3).2 = .ok 31 ∧ exFn.run 3 2 = .ok 32 := by
  decide

end Zfit.Run
