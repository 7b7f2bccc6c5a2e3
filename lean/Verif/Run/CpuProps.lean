import Verif.Run.CpuModel
import Mathlib.Data.List.Induction
import Mathlib.Tactic.Common

/-!
# C237-C239: the number of CPUs and of threads is what was asked for
-/

namespace Zfit.Run

open Zfit

/-! ## What is meant -/

/-- The number of CPUs meant by `n_cpu`. -/
def asksFor (available : List ℕ) : NCpu → Option ℕ
  | .auto => some available.length
  | .int n => some n.toNat
  | .other => none

/-- The number of CPUs last asked for in a history; at the beginning all that are available. -/
def lastAsked (available : List ℕ) (ops : List CpusOp) : ℕ :=
  ops.foldl (fun k op => match op with
    | .setN n _ => (asksFor available n).getD k
    | _ => k) available.length

/-! ## Lemmas -/

theorem setExplicit_fields (c : Cpus) (a b : ℕ) :
    (c.setExplicit a b).1.cpu = c.cpu ∧ (c.setExplicit a b).1.strict = c.strict ∧ (c.setExplicit a b).1.started = c.started := by
  unfold Cpus.setExplicit Cpus.setIntra
  split
  · exact ⟨rfl, rfl, rfl⟩
  · rename_i c' h
    have hc : c'.cpu = c.cpu ∧ c'.strict = c.strict ∧ c'.started = c.started := by
      split at h
      · cases h; exact ⟨rfl, rfl, rfl⟩
      · split at h
        · cases h
        · cases h; exact ⟨rfl, rfl, rfl⟩
    unfold Cpus.setInter
    split
    · exact hc
    · rename_i c'' h'
      split at h'
      · cases h'; exact hc
      · split at h'
        · cases h'
        · cases h'; exact hc

/-- A successful call sets both numbers. -/
theorem setExplicit_ok (c : Cpus) (a b : ℕ) (h : (c.setExplicit a b).2 = none) :
    (c.setExplicit a b).1.intra = a ∧ (c.setExplicit a b).1.inter = b := by
  unfold Cpus.setExplicit Cpus.setIntra Cpus.setInter at h ⊢
  by_cases h1 : c.intra = a
  · by_cases h2 : c.inter = b
    · simp [h1, h2]
    · by_cases h3 : c.started
      · simp [h1, h2, h3] at h
      · simp [h1, h2, h3]
  · by_cases h3 : c.started
    · simp [h1, h3] at h
    · by_cases h2 : c.inter = b
      · simp [h1, h2, h3]
      · simp [h1, h2, h3]

theorem step_strict (available : List ℕ) (c : Cpus) (op : CpusOp) : (c.step available op).1.strict = c.strict := by
  cases op with
  | setN n strict =>
    simp only [Cpus.step, Cpus.setN]
    split
    · rfl
    · split
      · exact (setExplicit_fields _ _ _).2.1
      · rfl
  | explicit a b => exact (setExplicit_fields _ _ _).2.1
  | compute => rfl

theorem run_strict (available : List ℕ) (ops : List CpusOp) : ((Cpus.init available).run available ops).strict = false := by
  induction ops using List.reverseRecOn with
  | nil => rfl
  | append_singleton ops op ih =>
    unfold Cpus.run at ih ⊢
    rw [List.foldl_append, List.foldl_cons, List.foldl_nil, step_strict, ih]

theorem setN_nCpu (available : List ℕ) (c : Cpus) (n : NCpu) (strict : Bool) :
    (c.setN available n strict).1.nCpu = (asksFor available n).getD c.nCpu := by
  unfold Cpus.setN Cpus.nCpu
  cases n with
  | auto =>
    simp only [wantedCpus, asksFor]
    split
    · rw [(setExplicit_fields _ _ _).1]; rfl
    · rfl
  | int n =>
    simp only [wantedCpus, asksFor]
    split
    · rw [(setExplicit_fields _ _ _).1]; simp
    · simp
  | other => rfl

/-! ## C237 -/

/-- C237: after any history of setting the number of CPUs and of threads and of computing, whether the calls raised or not, `n_cpu` is the
number that was last asked for, and at the beginning all that are available. -/
theorem n_cpu_is_last_asked (available : List ℕ) (ops : List CpusOp) :
    ((Cpus.init available).run available ops).nCpu = lastAsked available ops := by
  have key : ∀ (ops : List CpusOp) (c : Cpus) (k : ℕ), c.nCpu = k →
      (c.run available ops).nCpu = ops.foldl (fun k op => match op with
        | .setN n _ => (asksFor available n).getD k
        | _ => k) k := by
    intro ops
    induction ops with
    | nil => intro c k h; exact h
    | cons op ops ih =>
      intro c k h
      have hs : (c.step available op).1.nCpu = (match op with
          | .setN n _ => (asksFor available n).getD k
          | _ => k) := by
        cases op with
        | setN n strict => simp only [Cpus.step]; rw [setN_nCpu, h]
        | explicit a b =>
          simp only [Cpus.step, Cpus.nCpu, (setExplicit_fields c a b).1]
          exact h
        | compute => exact h
      exact ih _ _ hs
  have h0 : (Cpus.init available).nCpu = available.length := by
    simp [Cpus.init, setN_nCpu, asksFor]
  exact key ops _ _ h0

example : ((Cpus.init [0, 1, 2, 3]).run [0, 1, 2, 3] [.setN (.int 2) true, .compute, .setN .other false, .setN (.int 3) true]).nCpu = 3 := by
  decide

/-! ## C238 -/

/-- C238, the part that holds: after a call that raises because the number is neither "auto" nor an integer nothing has changed. Missing:
calls that raise because something was computed before, see `raising_changes_violated`. -/
theorem raising_keeps_partial (available : List ℕ) (c : Cpus) (n : NCpu) (strict : Bool) (hn : n = .other) :
    c.setN available n strict = (c, some .unboundLocalError) := by
  subst hn
  rfl

/-- C238 is violated: after something was computed, asking strictly for another number of CPUs raises a `RuntimeError`, and `n_cpu` has
changed all the same. -/
theorem raising_changes_violated :
    (let c := (Cpus.init [0, 1, 2, 3]).run [0, 1, 2, 3] [.compute]
     (c.setN [0, 1, 2, 3] (.int 2) true).2 = some .runtimeError ∧ c.nCpu = 4 ∧ (c.setN [0, 1, 2, 3] (.int 2) true).1.nCpu = 2) := by
  decide

/-! ## C239 -/

/-- C239, the part that holds: a strict call that does not raise leaves TensorFlow with one thread within an operation and as many between
operations as CPUs were asked for. Missing: calls that are not strict, see `threads_violated` and `unstrict_violated`. -/
theorem strict_threads_partial (available : List ℕ) (ops : List CpusOp) (n : NCpu) :
    let r := ((Cpus.init available).run available ops).setN available n true
    r.2 = none → r.1.intra = 1 ∧ some r.1.inter = asksFor available n := by
  have hstrict := run_strict available ops
  generalize (Cpus.init available).run available ops = c at hstrict
  intro r h
  have hr : r = c.setN available n true := rfl
  clear_value r
  subst hr
  unfold Cpus.setN at h ⊢
  cases n with
  | other => cases h
  | auto =>
    simp only [wantedCpus, hstrict, Bool.xor_false, if_true] at h ⊢
    have := setExplicit_ok _ _ _ h
    exact ⟨this.1, by rw [this.2]; rfl⟩
  | int n =>
    simp only [wantedCpus, hstrict, Bool.xor_false, if_true] at h ⊢
    have := setExplicit_ok _ _ _ h
    exact ⟨this.1, by rw [this.2]; simp [asksFor]⟩

example : (((Cpus.init [0, 1, 2, 3]).run [0, 1, 2, 3] [.setN (.int 3) false]).setN [0, 1, 2, 3] (.int 2) true).2 = none := by decide

/-- C239 is violated: a call that is not strict, which is the default, never sets the number of threads between operations, whatever was done
before. -/
theorem threads_violated (available : List ℕ) (ops : List CpusOp) (n : NCpu) :
    let c := (Cpus.init available).run available ops
    (c.setN available n false).1.inter = c.inter ∧ (c.setN available n false).1.intra = c.intra := by
  have hstrict := run_strict available ops
  intro c
  have hc : c.strict = false := hstrict
  clear_value c
  unfold Cpus.setN
  cases n <;> simp [wantedCpus, hc]

/-- C239 is violated: after a strict call, a call that is not strict leaves TensorFlow with one thread within an operation. -/
theorem unstrict_violated (available : List ℕ) (ops : List CpusOp) (n m : NCpu)
    (h : (((Cpus.init available).run available ops).setN available n true).2 = none) :
    ((Cpus.init available).run available (ops ++ [.setN n true, .setN m false])).intra = 1 := by
  have h1 := (strict_threads_partial available ops n h).1
  have h2 := (threads_violated available (ops ++ [.setN n true]) m).2
  have e : ∀ (l : List CpusOp) (op : CpusOp), (Cpus.init available).run available (l ++ [op]) =
      (((Cpus.init available).run available l).step available op).1 := by
    intro l op
    simp [Cpus.run]
  have : ops ++ [.setN n true, .setN m false] = (ops ++ [.setN n true]) ++ [.setN m false] := by simp
  rw [this, e, Cpus.step, h2, e, Cpus.step]
  exact h1

end Zfit.Run
