import Verif.Run.ModeModel
import Mathlib.Data.List.Perm.Basic
import Mathlib.Data.List.Nodup

/-!
# Properties of the run modes (C46) and of the CPU pool (C47)

* C46: `graph_mode_restored_partial`, `autograd_mode_restored`, `body_error_kept`, `new_kind_follows_mode`; `dict_mode_violated`, `bad_mode_violated`
* C47: `cpus_never_shared`, `cpus_given_back_partial`, `cpus_taken`; `cpus_lost_violated`
-/

namespace Zfit.Run

open Zfit

/-! ## C46 -/

/-- Is a function of kind `k` compiled in mode `m`? (Documentation of `set_graph_mode`: all, none, all but model methods.) -/
def compiled (m : Mode) (k : ℕ) : Bool :=
  match m with
  | .on => true
  | .off => false
  | _ => k ≠ 1

/-- One of the three simple modes is active: every registered kind is compiled as the mode says, the backend runs eagerly in mode `off`
only, and the default kinds are registered. -/
structure Simple (s : RS) : Prop where
  mode : s.graph = .on ∨ s.graph = .off ∨ s.graph = .auto
  jit : ∀ k b, s.jit k = some b → b = compiled s.graph k
  known : ∀ k < 7, s.jit k ≠ none
  eager : s.eager = decide (s.graph = .off)

theorem setAll_some (e : Bool) (jit : ℕ → Option Bool) (k : ℕ) (b : Bool) (h : setAll e jit k = some b) : b = e := by
  unfold setAll at h; cases hj : jit k <;> simp [hj] at h; exact h.symm

theorem update_ne (d : List (ℕ × Bool)) (jit : ℕ → Option Bool) (k : ℕ) (h : jit k ≠ none) : update d jit k ≠ none := by
  unfold update
  induction d generalizing jit with
  | nil => exact h
  | cons x xs ih => rw [List.foldl_cons]; apply ih; split <;> simp_all

theorem setGraph_keys (m : Mode) (b : Bool) (s : RS) (k : ℕ) (h : s.jit k ≠ none) : (setGraph m b s).1.jit k ≠ none := by
  have hs : ∀ e, setAll e s.jit k ≠ none := fun e => by unfold setAll; simp [h]
  have hd : setDefault s.jit k ≠ none := by unfold setDefault; split <;> simp_all
  cases m <;> cases b <;> first | exact hs _ | exact hd | exact update_ne _ _ _ h | exact h

theorem exec_keys (p : Code) (s : RS) (k : ℕ) (h : s.jit k ≠ none) : (exec p s).1.jit k ≠ none := by
  induction p generalizing s with
  | nop => exact h
  | raise e => exact h
  | seq p q ihp ihq =>
    have := ihp s h
    unfold exec
    split <;> rename_i hp <;> rw [hp] at this
    · exact this
    · exact ihq _ this
  | tryExcept p q ihp ihq =>
    have := ihp s h
    unfold exec
    split <;> rename_i hp <;> rw [hp] at this
    · exact ihq _ this
    · exact this
  | setGraph m b => exact setGraph_keys m b s k h
  | setAuto v => exact h
  | register i =>
    unfold exec newKind
    split
    · exact h
    · dsimp only; split <;> simp_all
  | withGraph m b body ih =>
    have h1 := setGraph_keys m b s k h
    unfold exec
    split <;> rename_i hp <;> rw [hp] at h1
    · exact h1
    · have h2 := ih _ h1
      split
      rename_i hb
      rw [hb] at h2
      have h3 := setGraph_keys s.graph b _ k h2
      split <;> rename_i hr <;> rw [hr] at h3 <;> exact h3
  | withAuto v body ih =>
    have := ih (setAuto v s) h
    unfold exec
    split
    rename_i hb
    rw [hb] at this
    exact this

/-- Setting a simple mode makes it active, whatever the state was. -/
theorem setGraph_simple (m : Mode) (hm : m = .on ∨ m = .off ∨ m = .auto) (s : RS) :
    ((setGraph m true s).1.graph = m ∧ (setGraph m true s).2 = none ∧ (setGraph m true s).1.eager = decide (m = .off))
      ∧ (∀ k b, (setGraph m true s).1.jit k = some b → b = compiled m k) := by
  rcases hm with rfl | rfl | rfl
  · exact ⟨⟨rfl, rfl, rfl⟩, fun k b h => setAll_some _ _ _ _ h⟩
  · exact ⟨⟨rfl, rfl, rfl⟩, fun k b h => setAll_some _ _ _ _ h⟩
  · refine ⟨⟨rfl, rfl, rfl⟩, fun k b h => ?_⟩
    change setDefault s.jit k = some b at h
    unfold setDefault defaultJit at h
    by_cases h1 : k = 1
    · subst h1; simp at h; simp [compiled, h]
    · by_cases h7 : k < 7
      · simp [h1, h7] at h; simp [compiled, h1, h]
      · simp [h1, h7] at h; obtain ⟨a, -, rfl⟩ := h; simp [compiled, h1]

/-- With one of the simple modes active, every `with run.set_graph_mode(m)` block, with any code in it (further mode changes, nested
blocks, exceptions), leaves the graph mode, the eagerness of the backend and the treatment of every kind of function as before. Missing from
the full claim: the cases of `dict_mode_violated`, `bad_mode_violated`. -/
theorem graph_mode_restored_partial (m : Mode) (hm : m ≠ .bad) (body : Code) (s : RS) (hs : Simple s) :
    let s' := (exec (.withGraph m true body) s).1
    s'.graph = s.graph ∧ s'.eager = s.eager ∧ (∀ k, s.jit k ≠ none → s'.jit k = s.jit k) ∧ Simple s' := by
  obtain ⟨sb, hsb⟩ : ∃ sb, sb = (setGraph m true s).1 := ⟨_, rfl⟩
  have hset : setGraph m true s = (sb, none) := by
    subst hsb
    cases m with
    | bad => exact absurd rfl hm
    | _ => rfl
  have hkeys : ∀ k, s.jit k ≠ none → (exec body sb).1.jit k ≠ none := fun k hk =>
    exec_keys body sb k (by rw [hsb]; exact setGraph_keys m true s k hk)
  obtain ⟨⟨g1, g2, g3⟩, g4⟩ := setGraph_simple s.graph hs.mode (exec body sb).1
  have hrun : exec (.withGraph m true body) s = ((setGraph s.graph true (exec body sb).1).1, (exec body sb).2) := by
    conv_lhs => unfold exec
    rw [hset]
    dsimp only
    rw [show setGraph s.graph true (exec body sb).1 = ((setGraph s.graph true (exec body sb).1).1, none) from Prod.ext rfl g2]
  intro s'
  have hs' : s' = (setGraph s.graph true (exec body sb).1).1 := by simp only [s', hrun]
  rw [hs']
  have hsk : ∀ k, s.jit k ≠ none → (setGraph s.graph true (exec body sb).1).1.jit k ≠ none := fun k hk => setGraph_keys _ _ _ _ (hkeys k hk)
  refine ⟨g1, by rw [g3, hs.eager], fun k hk => ?_, ⟨by rw [g1]; exact hs.mode, by rw [g1]; exact g4, fun k hk => hsk k (hs.known k hk), by rw [g1, g3]⟩⟩
  obtain ⟨b, hb⟩ := Option.ne_none_iff_exists'.1 (hsk k hk)
  obtain ⟨b0, hb0⟩ := Option.ne_none_iff_exists'.1 hk
  rw [hb, hb0, g4 k b hb, hs.jit k b0 hb0]

/-- The exception of the body, if any, comes out of the block. -/
theorem body_error_kept (m : Mode) (hm : m ≠ .bad) (backend : Bool) (body : Code) (s : RS) (hs : s.graph ≠ .bad) :
    (exec (.withGraph m backend body) s).2 = (exec body (setGraph m backend s).1).2 := by
  have hset : ∀ m s, m ≠ Mode.bad → (setGraph m backend s).2 = none := by
    intro m s hm
    cases m with
    | bad => exact absurd rfl hm
    | _ => rfl
  conv_lhs => unfold exec
  rw [show setGraph m backend s = ((setGraph m backend s).1, none) from Prod.ext rfl (hset m s hm)]
  dsimp only
  obtain ⟨r, hr⟩ : ∃ r, r = exec body (setGraph m backend s).1 := ⟨_, rfl⟩
  rw [← hr]
  rw [show setGraph s.graph backend r.1 = ((setGraph s.graph backend r.1).1, none) from Prod.ext rfl (hset _ _ hs)]

/-- `with run.set_autograd_mode(v)` restores the gradient mode, with any code in it, from every state. -/
theorem autograd_mode_restored (v : Bool) (body : Code) (s : RS) :
    let s' := (exec (.withAuto v body) s).1
    s'.autograd = s.autograd ∧ s'.numGrad = !s.autograd := by
  intro s'
  simp only [s', exec]
  exact ⟨rfl, rfl⟩

/-- The initial state (execution.py:18 `DEFAULT_MODE`). -/
def initRS : RS := ⟨.auto, defaultJit, false, true, false⟩

theorem init_simple : Simple initRS where
  mode := .inr (.inr rfl)
  jit k b h := by
    simp only [initRS, defaultJit] at h
    by_cases h1 : k = 1
    · subst h1; simp at h; simp [compiled, initRS, h]
    · by_cases h7 : k < 7
      · simp [h1, h7] at h; simp [compiled, initRS, h1, h]
      · simp [h1, h7] at h
  known k hk := by simp only [initRS, defaultJit]; split <;> simp [hk]
  eager := rfl

/-- Functions of a kind that is new are compiled if a dictionary with entries is the active mode, whatever the entries are;
with an empty dictionary they are not. -/
theorem new_kind_dict (k : ℕ) (s : RS) (d : List (ℕ × Bool)) (hd : s.graph = .dict d) (hk : s.jit k = none) :
    let s' := (exec (.register k) s).1
    s'.jit k = some (!d.isEmpty) ∧ s'.graph = s.graph ∧ ∀ i, i ≠ k → s'.jit i = s.jit i := by
  intro s'
  have e : s' = newKind k s := rfl
  rw [e]
  unfold newKind
  rw [hk, hd]
  exact ⟨by simp [Mode.truthy], by simp [hd], fun i hi => by simp [hi]⟩

/-- The eighth kind is new with the mode set to a dictionary. -/
example : let s := (setGraph (.dict [(2, false)]) true initRS).1
    s.graph = .dict [(2, false)] ∧ s.jit 8 = none := ⟨rfl, rfl⟩

/-- Functions of a kind that is new follow the mode that is active when the first one is defined: with one of the simple modes the
state stays one of this mode, and no other kind is touched. -/
theorem new_kind_follows_mode (k : ℕ) (s : RS) (hs : Simple s) :
    let s' := (exec (.register k) s).1
    Simple s' ∧ s'.jit k = some (compiled s.graph k) ∧ s'.graph = s.graph ∧ ∀ i, i ≠ k → s'.jit i = s.jit i := by
  intro s'
  have e : s' = newKind k s := rfl
  rw [e]
  unfold newKind
  cases hk : s.jit k with
  | some b =>
    dsimp only
    exact ⟨hs, by rw [hk, hs.jit k b hk], rfl, fun _ _ => rfl⟩
  | none =>
    dsimp only
    have h7 : ¬ k < 7 := fun h => hs.known k h hk
    have hc : s.graph.truthy = compiled s.graph k := by
      rcases hs.mode with h | h | h <;> rw [h] <;> simp [Mode.truthy, compiled]
      omega
    refine ⟨⟨hs.mode, ?_, ?_, hs.eager⟩, by simp [hc], rfl, fun i hi => by simp [hi]⟩
    · intro i b hb
      dsimp only at hb ⊢
      split at hb
      · rename_i hik
        simp only [Option.some.injEq] at hb
        rw [← hb, hik, hc]
      · exact hs.jit i b hb
    · intro i hi
      dsimp only
      rw [if_neg (by omega)]
      exact hs.known i hi

/-- A body that itself changes the mode for good and fails. -/
example : ((exec (.withGraph .off true (.seq (.setGraph .on true) (.raise .userException))) initRS).1.jit 1,
    (exec (.withGraph .off true (.seq (.setGraph .on true) (.raise .userException))) initRS).2) = (some false, some .userException) := by decide

/-- The full property fails when the active mode is a dictionary: it is set again by an update, which leaves all other kinds of functions
as they were in the block. Here losses (kind 2) are compiled before the block and not after. -/
theorem dict_mode_violated :
    let s := (exec (.setGraph (.dict [(1, true)]) true) initRS).1
    let s' := (exec (.withGraph .off true .nop) s).1
    s'.graph = s.graph ∧ s.jit 2 = some true ∧ s'.jit 2 = some false := by decide

/-- An invalid mode is rejected, but the backend has been switched already: the mode says `off` and the backend compiles. -/
theorem bad_mode_violated :
    let s := (exec (.setGraph .off true) initRS).1
    let r := exec (.withGraph .bad true .nop) s
    r.2 = some .valueError ∧ r.1.graph = .off ∧ s.eager = true ∧ r.1.eager = false := by decide

/-! ## C47 -/

/-- The CPUs held by the running blocks. -/
def Pool.inUse (p : Pool) : List ℕ := p.held.flatMap (·.2)

theorem takeLast_perm (l : List ℕ) (n : ℕ) (h : n = 0 → l = []) : ((takeLast l n).2 ++ (takeLast l n).1) = l := by
  unfold takeLast
  split
  · rename_i h0; simp [h h0]
  · exact List.take_append_drop _ _

theorem wanted_zero (maxCpu : Int) (l : List ℕ) (h : isNone maxCpu l.length = false) (hw : wanted maxCpu l.length = 0) : l = [] := by
  unfold isNone at h
  unfold wanted at hw
  simp only [beq_eq_false_iff_ne, ne_eq] at h
  apply List.eq_nil_of_length_eq_zero
  split at h <;> rename_i hneg <;> simp only [hneg, if_true, if_false] at hw <;> omega

theorem erase_flat (l : List (ℕ × List ℕ)) (id : ℕ) (h : ℕ × List ℕ) (hf : l.find? (fun h => h.1 == id) = some h) :
    (h.2 ++ (l.eraseP (fun h => h.1 == id)).flatMap (·.2)).Perm (l.flatMap (·.2)) := by
  induction l with
  | nil => simp at hf
  | cons x xs ih =>
    by_cases hx : x.1 == id
    · simp only [List.find?_cons, hx, Option.some.injEq] at hf
      subst hf
      simp [List.eraseP_cons, hx]
    · simp only [List.find?_cons, hx] at hf
      simp only [List.eraseP_cons, hx, cond_false, List.flatMap_cons]
      have := ih hf
      refine List.Perm.trans ?_ (this.append_left x.2)
      rw [← List.append_assoc, ← List.append_assoc]
      exact List.perm_append_comm.append_right _

/-- One step neither creates nor duplicates a CPU; only leaving by an exception can lose some. -/
theorem step_perm (p : Pool) (op : CpuOp) :
    ∃ lost, ((cpuStep p op).cpu ++ (cpuStep p op).inUse ++ lost).Perm (p.cpu ++ p.inUse)
      ∧ ((∀ id, op ≠ .leaveExc id) → lost = []) := by
  cases op with
  | enter id m =>
    refine ⟨[], ?_, fun _ => rfl⟩
    unfold cpuStep
    by_cases hn : isNone m p.cpu.length
    · simp only [hn, if_true, Pool.inUse, List.flatMap_cons, List.nil_append, List.append_nil]; exact List.Perm.refl _
    · simp only [hn, Bool.false_eq_true, if_false, Pool.inUse, List.flatMap_cons, List.append_nil]
      rw [← List.append_assoc, takeLast_perm _ _ (wanted_zero m p.cpu (by simpa using hn))]
  | leave id =>
    refine ⟨[], ?_, fun _ => rfl⟩
    unfold cpuStep
    rcases hf : p.held.find? (fun h => h.1 == id) with _ | h
    · simp only [hf, List.append_nil]; exact List.Perm.refl _
    · simp only [hf, Pool.inUse, List.append_nil, List.append_assoc]
      exact (erase_flat p.held id h hf).append_left _
  | leaveExc id =>
    unfold cpuStep
    rcases hf : p.held.find? (fun h => h.1 == id) with _ | h
    · refine ⟨[], ?_, fun _ => rfl⟩
      have : p.held.eraseP (fun h => h.1 == id) = p.held := List.eraseP_of_forall_not (fun a ha => by simpa using List.find?_eq_none.1 hf a ha)
      simp only [Pool.inUse, this, List.append_nil]; exact List.Perm.refl _
    · refine ⟨h.2, ?_, fun hne => absurd rfl (hne id)⟩
      simp only [Pool.inUse, List.append_assoc]
      exact (List.perm_append_comm.trans (erase_flat p.held id h hf)).append_left _

theorem run_perm (cpus : List ℕ) (ops : List CpuOp) :
    let p := ops.foldl cpuStep ⟨cpus, []⟩
    ∃ lost, (p.cpu ++ p.inUse ++ lost).Perm cpus ∧ ((∀ id, CpuOp.leaveExc id ∉ ops) → lost = []) := by
  suffices h : ∀ (p0 : Pool), ∃ lost, ((ops.foldl cpuStep p0).cpu ++ (ops.foldl cpuStep p0).inUse ++ lost).Perm (p0.cpu ++ p0.inUse)
      ∧ ((∀ id, CpuOp.leaveExc id ∉ ops) → lost = []) by
    have := h ⟨cpus, []⟩
    simpa [Pool.inUse] using this
  induction ops with
  | nil => exact fun p0 => ⟨[], by simp, fun _ => rfl⟩
  | cons op ops ih =>
    intro p0
    obtain ⟨l1, h1, h1'⟩ := step_perm p0 op
    obtain ⟨l2, h2, h2'⟩ := ih (cpuStep p0 op)
    refine ⟨l2 ++ l1, ?_, fun hn => ?_⟩
    · rw [List.foldl_cons, ← List.append_assoc]
      exact (h2.append_right l1).trans h1
    · rw [h2' (fun id h => hn id (List.mem_cons_of_mem _ h)), h1' (fun id h => hn id (h ▸ List.mem_cons_self))]; rfl

/-- For every schedule of blocks, in any number of threads, left in any order and in any way: no CPU is held by two blocks, or by a block
and the pool, at the same time, and every CPU handed out is one of those the manager was created with. -/
theorem cpus_never_shared (cpus : List ℕ) (hn : cpus.Nodup) (ops : List CpuOp) :
    let p := ops.foldl cpuStep ⟨cpus, []⟩
    (p.cpu ++ p.inUse).Nodup ∧ ∀ c ∈ p.cpu ++ p.inUse, c ∈ cpus := by
  intro p
  obtain ⟨lost, hp, -⟩ := run_perm cpus ops
  have hnd := hp.nodup_iff.2 hn
  exact ⟨(List.nodup_append.1 hnd).1, fun c hc => hp.subset (List.mem_append_left _ hc)⟩

/-- If no block is left by an exception, the pool and the running blocks together always have all CPUs; when no block is running, the pool
is complete again. Missing from the full claim: the cases of `cpus_lost_violated`. -/
theorem cpus_given_back_partial (cpus : List ℕ) (ops : List CpuOp) (hops : ∀ id, CpuOp.leaveExc id ∉ ops) :
    let p := ops.foldl cpuStep ⟨cpus, []⟩
    (p.cpu ++ p.inUse).Perm cpus ∧ (p.held = [] → p.cpu.Perm cpus) := by
  intro p
  obtain ⟨lost, hp, hl⟩ := run_perm cpus ops
  rw [hl hops, List.append_nil] at hp
  refine ⟨hp, fun hh => ?_⟩
  have : p.inUse = [] := by simp [Pool.inUse, hh]
  have hp' : (p.cpu ++ p.inUse).Perm cpus := hp
  rwa [this, List.append_nil] at hp'

/-- A block gets the number of CPUs it asks for, at most those available; `-1` means all, `-2` all but one, ... -/
theorem cpus_taken (p : Pool) (id : ℕ) (m : Int) : ∃ c, (cpuStep p (.enter id m)).held = (id, c) :: p.held ∧
    (c.length : Int) = min (if m < 0 then max (p.cpu.length + 1 + m) 0 else m) p.cpu.length
      ∧ (c.length + (cpuStep p (.enter id m)).cpu.length = p.cpu.length) := by
  unfold cpuStep
  by_cases hn : isNone m p.cpu.length
  · refine ⟨[], by simp only [hn, if_true], ?_, by simp [hn]⟩
    unfold isNone at hn
    have := beq_iff_eq.1 hn
    rw [this, List.length_nil]; omega
  · simp only [hn, Bool.false_eq_true, if_false]
    refine ⟨_, rfl, ?_, ?_⟩
    · unfold isNone at hn
      have hn' := mt beq_iff_eq.2 hn
      unfold takeLast wanted
      split at hn' <;> rename_i hneg <;> simp only [hneg, if_true, if_false] <;> split <;> rename_i hz <;> simp <;> omega
    · generalize wanted m p.cpu.length = w
      unfold takeLast
      by_cases hw : w = 0
      · simp [hw]
      · simp [hw]

example : (([CpuOp.enter 0 2, .enter 1 (-1), .leave 0, .leave 1].foldl cpuStep ⟨[0, 1, 2, 3], []⟩).cpu) = [2, 3, 0, 1] := by decide

/-- The full property fails: the CPUs of a block left by an exception are gone. -/
theorem cpus_lost_violated :
    let p := ([CpuOp.enter 0 3, .leaveExc 0].foldl cpuStep ⟨[0, 1, 2, 3], []⟩)
    p.held = [] ∧ p.cpu = [0] := by decide

end Zfit.Run
