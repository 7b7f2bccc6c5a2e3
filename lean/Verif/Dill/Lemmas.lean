import Verif.Dill.Model
import Mathlib.Tactic.Ring
import Mathlib.Data.List.Basic

/-! Helper lemmas for `Verif.Dill.Props`. -/

namespace Zfit.Dill

variable {Byte Obj α : Type}

/-- A call whose k-th outcome is `out k`, on states with the given content. -/
structure Counts (call : St Byte → St Byte × Except LoadRaise α) (c : List Byte) (out : ℕ → Except LoadRaise α) : Prop where
  res : ∀ s, s.content = c → (call s).2 = out s.loaded
  loaded : ∀ s, s.content = c → (call s).1.loaded = s.loaded + 1
  cleared : ∀ s, s.content = c → (call s).1.cleared = s.cleared
  content : ∀ s, s.content = c → (call s).1.content = c
  dumped : ∀ s, s.content = c → (call s).1.dumped = s.dumped

theorem counts_loads (w : World Byte Obj) (bytes c : List Byte) :
    Counts (callLoads w bytes) c (fun k => (w.loadCall k bytes).map (·.1)) :=
  ⟨fun _ _ => rfl, fun _ _ => rfl, fun _ _ => rfl, fun _ h => h, fun _ _ => rfl⟩

theorem counts_load (w : World Byte Obj) (p : ℕ) (c : List Byte) :
    Counts (callLoad w p) c (fun k => (w.loadCall k (c.drop p)).map (·.1)) := by
  constructor <;> intro s h <;> subst h <;> unfold callLoad <;>
    rcases w.loadCall s.loaded (s.content.drop p) with e | ⟨o, k⟩ <;> rfl

theorem graphClear_ok {call : St Byte → St Byte × Except LoadRaise α} {c : List Byte} {out : ℕ → Except LoadRaise α}
    (hc : Counts call c out) (left : ℕ) (s : St Byte) (hs : s.content = c) (s' : St Byte) (a : α)
    (h : graphClear call left s = (s', .ok a)) :
    ∃ k ≤ left, out (s.loaded + k) = .ok a ∧ (∀ i < k, ∃ e, out (s.loaded + i) = .error e) ∧ s'.loaded = s.loaded + k + 1 ∧
      s'.content = c ∧ s'.dumped = s.dumped ∧ s'.cleared ≤ s.cleared + k ∧
      ∃ s'', s''.loaded = s.loaded + k ∧ s''.content = c ∧ call s'' = (s', .ok a) := by
  induction left generalizing s with
  | zero =>
    unfold graphClear at h
    have h1 := hc.res s hs
    have h2 := hc.loaded s hs
    have h3 := hc.content s hs
    have h4 := hc.dumped s hs
    have h5 := hc.cleared s hs
    rcases hcall : call s with ⟨s1, e | b⟩
    · rw [hcall] at h
      cases e <;> simp at h
    · rw [hcall] at h h1 h2 h3 h4 h5
      simp only [Prod.mk.injEq, Except.ok.injEq] at h
      obtain ⟨rfl, rfl⟩ := h
      exact ⟨0, le_refl _, h1.symm, fun i hi => absurd hi (Nat.not_lt_zero _), h2, h3, h4, by rw [h5]; omega, s, rfl, hs, hcall⟩
  | succ left ih =>
    unfold graphClear at h
    have h1 := hc.res s hs
    have h2 := hc.loaded s hs
    have h3 := hc.content s hs
    have h4 := hc.dumped s hs
    have h5 := hc.cleared s hs
    rcases hcall : call s with ⟨s1, e | b⟩
    · rw [hcall] at h h1 h2 h3 h4 h5
      simp only at h1 h2 h3 h4 h5
      have go : ∀ s2 : St Byte, s2.loaded = s.loaded + 1 → s2.content = c → s2.dumped = s.dumped → s2.cleared ≤ s.cleared + 1 →
          graphClear call left s2 = (s', .ok a) →
          ∃ k ≤ left + 1, out (s.loaded + k) = .ok a ∧ (∀ i < k, ∃ e, out (s.loaded + i) = .error e) ∧
            s'.loaded = s.loaded + k + 1 ∧ s'.content = c ∧ s'.dumped = s.dumped ∧ s'.cleared ≤ s.cleared + k ∧
            ∃ s'', s''.loaded = s.loaded + k ∧ s''.content = c ∧ call s'' = (s', .ok a) := by
        intro s2 g1 g2 g3 g4 hg
        obtain ⟨k, hk, k1, k2, k3, k4, k5, k6, s'', k7, k8, k9⟩ := ih s2 g2 hg
        refine ⟨k + 1, by omega, ?_, ?_, by omega, k4, by rw [k5, g3], by omega, s'', by omega, k8, k9⟩
        · rw [← k1, g1]; congr 1; omega
        · intro i hi
          rcases i with _ | i
          · exact ⟨e, h1.symm⟩
          · obtain ⟨e', he'⟩ := k2 i (by omega)
            exact ⟨e', by rw [← he', g1]; congr 1; omega⟩
      cases e with
      | unsupportedRead => simp at h
      | unsupportedOther => exact go s1 h2 h3 h4 (by omega) h
      | other => exact go { s1 with cleared := s1.cleared + 1 } h2 h3 h4 (by simp only; omega) h
    · rw [hcall] at h h1 h2 h3 h4 h5
      simp only [Prod.mk.injEq, Except.ok.injEq] at h
      obtain ⟨rfl, rfl⟩ := h
      exact ⟨0, Nat.zero_le _, h1.symm, fun i hi => absurd hi (Nat.not_lt_zero _), h2, h3, h4, by rw [h5]; omega, s, rfl, hs, hcall⟩

/-- The first attempt that does not fail in the ordinary way decides. -/
theorem graphClear_first {call : St Byte → St Byte × Except LoadRaise α} {c : List Byte} {out : ℕ → Except LoadRaise α}
    (hc : Counts call c out) (left k : ℕ) (hk : k ≤ left) (s : St Byte) (hs : s.content = c)
    (hf : ∀ i < k, out (s.loaded + i) = .error .other) :
    (∀ a, out (s.loaded + k) = .ok a → ∃ s', graphClear call left s = (s', .ok a) ∧ s'.loaded = s.loaded + k + 1 ∧
      s'.cleared = s.cleared + k ∧ s'.content = c) ∧
    (out (s.loaded + k) = .error .unsupportedRead → ∃ s', graphClear call left s = (s', .error .unsupportedOperation)) ∧
    (k = left → out (s.loaded + k) = .error .other → ∃ s', graphClear call left s = (s', .error .zfitDillLoadError) ∧
      s'.loaded = s.loaded + k + 1 ∧ s'.cleared = s.cleared + k ∧ s'.content = c) := by
  induction k generalizing left s with
  | zero =>
    have h1 := hc.res s hs
    have h2 := hc.loaded s hs
    have h3 := hc.content s hs
    have h5 := hc.cleared s hs
    rcases hcall : call s with ⟨s1, r⟩
    rw [hcall] at h1 h2 h3 h5
    simp only at h1 h2 h3 h5
    subst h1
    refine ⟨fun a ha => ?_, fun ha => ?_, fun h0 ha => ?_⟩
    · unfold graphClear
      rw [hcall]
      simp only [Nat.add_zero] at ha
      rw [ha]
      exact ⟨s1, rfl, h2, h5, h3⟩
    · unfold graphClear
      rw [hcall]
      simp only [Nat.add_zero] at ha
      rw [ha]
      exact ⟨s1, rfl⟩
    · subst h0
      unfold graphClear
      rw [hcall]
      simp only [Nat.add_zero] at ha
      rw [ha]
      exact ⟨s1, rfl, h2, h5, h3⟩
  | succ k ih =>
    rcases left with _ | left
    · omega
    have h1 := hc.res s hs
    have h2 := hc.loaded s hs
    have h3 := hc.content s hs
    have h5 := hc.cleared s hs
    have h0 := hf 0 (Nat.succ_pos _)
    rcases hcall : call s with ⟨s1, r⟩
    rw [hcall] at h1 h2 h3 h5
    simp only at h1 h2 h3 h5
    subst h1
    simp only [Nat.add_zero] at h0
    have hun : graphClear call (left + 1) s = graphClear call left { s1 with cleared := s1.cleared + 1 } := by
      rw [graphClear, hcall, h0]
    rw [hun]
    have hih := ih left (by omega) { s1 with cleared := s1.cleared + 1 } h3 (fun i hi => by
      have := hf (i + 1) (by omega)
      rw [show s.loaded + (i + 1) = s1.loaded + i by omega] at this
      exact this)
    have e : s.loaded + (k + 1) = s1.loaded + k := by omega
    rw [e]
    refine ⟨fun a ha => ?_, fun ha => hih.2.1 ha, fun hl ha => ?_⟩
    · obtain ⟨s', g1, g2, g3, g4⟩ := hih.1 a ha
      exact ⟨s', g1, by simp only at g2; omega, by simp only at g3; omega, g4⟩
    · obtain ⟨s', g1, g2, g3, g4⟩ := hih.2.2 (by omega) ha
      exact ⟨s', g1, by simp only at g2; omega, by simp only at g3; omega, g4⟩

/-- An error in the end means that nothing was loaded. -/
theorem graphClear_error {call : St Byte → St Byte × Except LoadRaise α} {c : List Byte} {out : ℕ → Except LoadRaise α}
    (hc : Counts call c out) (left : ℕ) (s : St Byte) (hs : s.content = c) (s' : St Byte) (e : Raised)
    (h : graphClear call left s = (s', .error e)) :
    ∃ k ≤ left, s'.loaded = s.loaded + k + 1 ∧ (∀ i ≤ k, ∃ e, out (s.loaded + i) = .error e) ∧ s'.content = c ∧
      s'.dumped = s.dumped ∧ (e = .zfitDillLoadError → k = left) := by
  induction left generalizing s with
  | zero =>
    unfold graphClear at h
    have h1 := hc.res s hs
    have h2 := hc.loaded s hs
    have h3 := hc.content s hs
    have h4 := hc.dumped s hs
    rcases hcall : call s with ⟨s1, e' | b⟩
    · rw [hcall] at h h1 h2 h3 h4
      have hs1 : s1 = s' := by cases e' <;> simp only [Prod.mk.injEq] at h <;> exact h.1
      subst hs1
      exact ⟨0, le_refl _, h2, fun i hi => ⟨e', by rw [Nat.le_zero.1 hi]; exact h1.symm⟩, h3, h4, fun _ => rfl⟩
    · rw [hcall] at h; simp at h
  | succ left ih =>
    unfold graphClear at h
    have h1 := hc.res s hs
    have h2 := hc.loaded s hs
    have h3 := hc.content s hs
    have h4 := hc.dumped s hs
    rcases hcall : call s with ⟨s1, e' | b⟩
    · rw [hcall] at h h1 h2 h3 h4
      simp only at h1 h2 h3 h4
      have go : ∀ s2 : St Byte, s2.loaded = s.loaded + 1 → s2.content = c → s2.dumped = s.dumped →
          graphClear call left s2 = (s', .error e) →
          ∃ k ≤ left + 1, s'.loaded = s.loaded + k + 1 ∧ (∀ i ≤ k, ∃ e, out (s.loaded + i) = .error e) ∧ s'.content = c ∧
            s'.dumped = s.dumped ∧ (e = .zfitDillLoadError → k = left + 1) := by
        intro s2 g1 g2 g3 hg
        obtain ⟨k, hk, k1, k2, k3, k4, k5⟩ := ih s2 g2 hg
        refine ⟨k + 1, by omega, by omega, ?_, k3, by rw [k4, g3], fun he => by rw [k5 he]⟩
        intro i hi
        rcases i with _ | i
        · exact ⟨e', h1.symm⟩
        · obtain ⟨e'', he'⟩ := k2 i (by omega)
          exact ⟨e'', by rw [← he', g1]; congr 1; omega⟩
      cases e' with
      | unsupportedRead =>
        simp only [Prod.mk.injEq, Except.error.injEq] at h
        obtain ⟨rfl, rfl⟩ := h
        exact ⟨0, Nat.zero_le _, h2, fun i hi => ⟨.unsupportedRead, by rw [Nat.le_zero.1 hi]; exact h1.symm⟩, h3, h4, fun hh => by cases hh⟩
      | unsupportedOther => exact go s1 h2 h3 h4 h
      | other => exact go { s1 with cleared := s1.cleared + 1 } h2 h3 h4 h
    · rw [hcall] at h; simp at h

/-- A call of dump(s): counts up and leaves the numbers of loads and clearings alone. -/
structure DCounts (call : St Byte → St Byte × Except DumpRaise α) : Prop where
  dumped : ∀ s, (call s).1.dumped = s.dumped + 1
  loaded : ∀ s, (call s).1.loaded = s.loaded
  cleared : ∀ s, (call s).1.cleared = s.cleared

theorem dcounts_dumps (w : World Byte Obj) : DCounts (callDumps w) := by
  constructor <;> intro s <;> unfold callDumps <;> rcases w.dumpCall s.dumped with ⟨b, _ | e⟩ <;> rfl

theorem dcounts_dump (w : World Byte Obj) : DCounts (callDump w) := by
  constructor <;> intro s <;> unfold callDump <;> rcases w.dumpCall s.dumped with ⟨b, _ | e⟩ <;> rfl

/-- What `retryGc` preserves and that its success is the success of the last call. -/
theorem retryGc_inv {call : St Byte → St Byte × Except DumpRaise α} (P : St Byte → Prop)
    (hP : ∀ s, P s → P (call s).1) (depth : ℕ) (r : ℤ) (s : St Byte) (hs : P s) :
    P (retryGc call depth r s).1 ∧
    ∀ a, (retryGc call depth r s).2 = .ok a → ∃ s0, P s0 ∧ call s0 = ((retryGc call depth r s).1, .ok a) := by
  induction depth generalizing r s with
  | zero => exact ⟨hs, fun a h => by simp [retryGc] at h⟩
  | succ depth ih =>
    have h1 := hP s hs
    rcases hcall : call s with ⟨s1, e | b⟩
    · rw [hcall] at h1
      cases e with
      | funcGraph =>
        by_cases hr : r ≤ 0
        · have : retryGc call (depth + 1) r s = (s1, .error .runtimeError) := by rw [retryGc, hcall]; simp only [if_pos hr]
          rw [this]; exact ⟨h1, fun a h => by simp at h⟩
        · have : retryGc call (depth + 1) r s = retryGc call depth (r - 1) s1 := by rw [retryGc, hcall]; simp only [if_neg hr]
          rw [this]; exact ih _ _ h1
      | dictChanged =>
        have : retryGc call (depth + 1) r s = retryGc call depth (r - 1) s1 := by rw [retryGc, hcall]
        rw [this]; exact ih _ _ h1
      | ipyopt => rw [retryGc, hcall]; exact ⟨h1, fun a h => by simp at h⟩
      | otherType => rw [retryGc, hcall]; exact ⟨h1, fun a h => by simp at h⟩
      | otherRuntime => rw [retryGc, hcall]; exact ⟨h1, fun a h => by simp at h⟩
      | other => rw [retryGc, hcall]; exact ⟨h1, fun a h => by simp at h⟩
    · rw [hcall] at h1
      have : retryGc call (depth + 1) r s = (s1, .ok b) := by rw [retryGc, hcall]
      rw [this]
      exact ⟨h1, fun a h => ⟨s, hs, by cases h; exact hcall⟩⟩

theorem retryGc_counts {call : St Byte → St Byte × Except DumpRaise α} (hc : DCounts call) (depth : ℕ) (r : ℤ) (s : St Byte) :
    s.dumped ≤ (retryGc call depth r s).1.dumped ∧ (retryGc call depth r s).1.loaded = s.loaded ∧
    (retryGc call depth r s).1.cleared = s.cleared :=
  (retryGc_inv (fun t => s.dumped ≤ t.dumped ∧ t.loaded = s.loaded ∧ t.cleared = s.cleared)
    (fun t ht => ⟨by rw [hc.dumped]; omega, by rw [hc.loaded]; exact ht.2.1, by rw [hc.cleared]; exact ht.2.2⟩) depth r s
    ⟨le_refl _, rfl, rfl⟩).1

/-- Without a changing dictionary, `max_retries` bounds the number of calls. -/
theorem retryGc_bounded {call : St Byte → St Byte × Except DumpRaise α} (hc : DCounts call)
    (hd : ∀ s, (call s).2 ≠ .error .dictChanged) (depth : ℕ) (r : ℕ) (s : St Byte) :
    (retryGc call depth r s).1.dumped ≤ s.dumped + r + 1 := by
  induction depth generalizing r s with
  | zero => simp only [retryGc]; omega
  | succ depth ih =>
    have h1 := hc.dumped s
    have h2 := hd s
    rcases hcall : call s with ⟨s1, e | b⟩
    · rw [hcall] at h1 h2
      simp only at h1
      cases e with
      | funcGraph =>
        rw [retryGc, hcall]
        simp only
        by_cases hr : (r : ℤ) ≤ 0
        · rw [if_pos hr]; simp only; omega
        · rw [if_neg hr]
          have hr' : 0 < r := by omega
          have := ih (r - 1) s1
          rw [show ((r - 1 : ℕ) : ℤ) = (r : ℤ) - 1 by omega] at this
          omega
      | dictChanged => exact absurd rfl h2
      | ipyopt => rw [retryGc, hcall]; simp only; omega
      | otherType => rw [retryGc, hcall]; simp only; omega
      | otherRuntime => rw [retryGc, hcall]; simp only; omega
      | other => rw [retryGc, hcall]; simp only; omega
    · rw [hcall] at h1
      simp only at h1
      rw [retryGc, hcall]
      simp only
      omega

end Zfit.Dill
