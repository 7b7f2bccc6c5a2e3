import Verif.Sample.LawSpec
import Verif.Common.Except
import Mathlib.Tactic.Linarith
import Mathlib.Algebra.Order.Floor.Ring
import Mathlib.Tactic.NormNum

/-!
# Which proposals are returned depends only on which are accepted

As long as the scaling does not change.
-/

namespace Zfit.Sample

open Zfit

variable {E : Type} {K : Type} [Field K] [LinearOrder K] [IsStrictOrderedRing K] [FloorRing K]

/-- The accepted numbers of the `k`-th pass with `m` proposals. -/
def picked (M : ℕ × ℕ → Bool) (k m : ℕ) : List (ℕ × ℕ) := ((List.range m).filter (fun j => M (k, j))).map (fun j => (k, j))

/-- The numbers of the returned proposals if `M` says which are accepted; `j0` events are there already. -/
def flow (c : Cfg E K) (M : ℕ × ℕ → Bool) (j0 : ℕ) : ℕ → ℕ → List (ℕ × ℕ) → ℕ → K → Option (List (ℕ × ℕ))
  | 0, _, idx, _, _ => if c.n ≤ j0 + idx.length then some idx else none
  | fuel + 1, k, idx, drawn, eff =>
    if c.n ≤ j0 + idx.length then some idx
    else match nToProduce c ⟨[], j0 + idx.length, drawn, eff, 0, 0, 0⟩ with
      | .error _ => none
      | .ok m => flow c M j0 fuel (k + 1) (idx ++ picked M k m) (drawn + m)
          (max ((j0 + (idx ++ picked M k m).length : ℕ) : K) (1 / 2) / max ((drawn + m : ℕ) : K) 1)

theorem nToProduce_congr (c : Cfg E K) (s : St E K) :
    nToProduce c s = nToProduce c ⟨[], s.nProduced, s.nDrawn, s.eff, 0, 0, 0⟩ := rfl

theorem nToProduce_le {c : Cfg E K} {s : St E K} {m : ℕ} (h : nToProduce c s = .ok m) : 0 < m ∧ m ≤ 800000 := by
  unfold nToProduce at h
  simp only at h
  split at h
  · have := Except.ok.inj h
    omega
  · cases h

theorem nToProduce_exists (c : Cfg E K) (s : St E K) (hn : s.nProduced < c.n) (he : s.eff ≤ 1) : ∃ m, nToProduce c s = .ok m := by
  unfold nToProduce
  simp only
  have h0 : (0 : K) < max s.eff (1 / 1000000) := lt_max_of_lt_right (by norm_num)
  have h1 : max s.eff (1 / 1000000) ≤ 1 := max_le he (by norm_num)
  have hf : (101 : ℤ) ≤ ⌊1 / max s.eff (1 / 1000000) * (101 / 100) * 100⌋ := by
    rw [Int.le_floor]
    have : (1 : K) ≤ 1 / max s.eff (1 / 1000000) := by rw [le_div_iff₀ h0]; linarith
    push_cast
    linarith
  have h2 : (0 : ℤ) < Int.fdiv (((c.n : ℤ) - s.nProduced) * ⌊1 / max s.eff (1 / 1000000) * (101 / 100) * 100⌋) 100 := by
    obtain ⟨f, hff⟩ : ∃ f : ℤ, f = ⌊1 / max s.eff (1 / 1000000) * (101 / 100) * 100⌋ := ⟨_, rfl⟩
    rw [← hff] at hf ⊢
    have hd : (1 : ℤ) ≤ (c.n : ℤ) - s.nProduced := by omega
    have : (101 : ℤ) ≤ ((c.n : ℤ) - s.nProduced) * f := by nlinarith
    rw [Int.fdiv_eq_ediv_of_nonneg _ (by norm_num)]
    omega
  exact ⟨_, if_pos (lt_max_of_lt_left h2)⟩

theorem accepted_stream (c : Cfg E K) (w : E → K) (wmax : Option K) (binom) (shuffle) (ω : ℕ × ℕ → E × K) (b : E → K) (k m : ℕ) :
    accepted c ((streamEnv w wmax binom shuffle ω).draw k m) ((List.range m).map (fun j => b (ω (k, j)).1)) =
      (picked (fun p => decide ((ω p).2 * b (ω p).1 < c.prob (ω p).1)) k m).map (fun p => (ω p).1) := by
  unfold accepted picked streamEnv
  simp only
  generalize List.range m = l
  rw [List.map_map]
  induction l with
  | nil => rfl
  | cons a l ih =>
    simp only [List.map_cons, List.zip_cons_cons, List.filter_cons]
    by_cases h : (ω (k, a)).2 * b (ω (k, a)).1 < c.prob (ω (k, a)).1
    · simp only [h, decide_true, if_true, List.map_cons, ih, Function.comp_apply]
    · simp only [h, decide_false, Bool.false_eq_true, if_false, ih]

theorem scatter_take (arr : List (Option E)) (i : ℕ) (xs : List E) (h : i ≤ arr.length) :
    (scatter arr i xs).take (i + xs.length) = arr.take i ++ xs.map some ∧ i + xs.length ≤ (scatter arr i xs).length := by
  unfold scatter
  have h0 : i - arr.length = 0 := by omega
  simp only [h0, List.replicate_zero, List.append_nil]
  refine ⟨?_, ?_⟩
  · rw [List.take_append_of_le_length]
    · rw [List.take_of_length_le]
      simp
    · simp; omega
  · simp; omega

/-- What is needed of the loop variables: nothing is rescaled and no check fails. -/
structure Steady (c : Cfg E K) (env : Env E K) (b : E → K) (I : St E K → Prop) : Prop where
  bounds : ∀ k m s, I s → (rescale c env k s (env.draw k m)).1 = (env.draw k m).sample.map b
  keeps : ∀ k m s, I s → (rescale c env k s (env.draw k m)).2.1 = s.nProduced
  next : ∀ k m s (t : St E K), I s → t.scaling = (rescale c env k s (env.draw k m)).2.2.1 →
    t.wMax = (rescale c env k s (env.draw k m)).2.2.2.1 → t.pMax = (rescale c env k s (env.draw k m)).2.2.2.2 → I t
  covers : ∀ x, c.prob x ≤ b x

theorem body_steady (c : Cfg E K) (w : E → K) (wmax : Option K) (binom) (shuffle) (ω : ℕ × ℕ → E × K) (b : E → K) (I : St E K → Prop)
    (hst : Steady c (streamEnv w wmax binom shuffle ω) b I) (k : ℕ) (s : St E K) (hs : I s) (m : ℕ) (hm : nToProduce c s = .ok m) :
    ∃ t, body c (streamEnv w wmax binom shuffle ω) k s = .ok t ∧ I t ∧
      t.arr = scatter s.arr s.nProduced ((picked (fun p => decide ((ω p).2 * b (ω p).1 < c.prob (ω p).1)) k m).map (fun p => (ω p).1)) ∧
      t.nProduced = s.nProduced + (picked (fun p => decide ((ω p).2 * b (ω p).1 < c.prob (ω p).1)) k m).length ∧
      t.nDrawn = s.nDrawn + m ∧ t.eff = max (t.nProduced : K) (1 / 2) / max (t.nDrawn : K) 1 := by
  have hsc : ((streamEnv w wmax binom shuffle ω).draw k m).sample.map b = (List.range m).map (fun j => b (ω (k, j)).1) := by
    simp only [streamEnv, List.map_map]
    rfl
  unfold body
  rw [hm]
  simp only [except_bind_ok]
  rw [if_neg]
  · refine ⟨_, rfl, hst.next k m s _ hs rfl rfl rfl, ?_, ?_, rfl, rfl⟩
    · simp only [hst.keeps k m s hs, hst.bounds k m s hs]
      rw [hsc, accepted_stream]
    · simp only [hst.keeps k m s hs, hst.bounds k m s hs]
      rw [hsc, accepted_stream, List.length_map]
  · rw [hst.bounds k m s hs]
    simp only [Bool.and_eq_true, List.any_eq_true, decide_eq_true_eq, not_and, not_exists, not_lt]
    intro _ t ht
    obtain ⟨j, hj, hget⟩ := List.getElem_of_mem ht
    simp only [List.getElem_zip, List.getElem_map] at hget
    subst hget
    exact hst.covers _

theorem loop_flow (c : Cfg E K) (w : E → K) (wmax : Option K) (binom) (shuffle) (ω : ℕ × ℕ → E × K) (b : E → K) (I : St E K → Prop)
    (hst : Steady c (streamEnv w wmax binom shuffle ω) b I) (pre : List (Option E)) :
    ∀ (fuel k : ℕ) (idx : List (ℕ × ℕ)) (s : St E K), I s → s.nProduced = pre.length + idx.length → s.nProduced ≤ s.arr.length →
      s.arr.take s.nProduced = pre ++ idx.map (fun p => some (ω p).1) →
      match flow c (fun p => decide ((ω p).2 * b (ω p).1 < c.prob (ω p).1)) pre.length fuel k idx s.nDrawn s.eff with
      | some l => ∃ t, loop c (streamEnv w wmax binom shuffle ω) fuel k s = some (.ok t) ∧ c.n ≤ pre.length + l.length ∧
          t.arr.take (pre.length + l.length) = pre ++ l.map (fun p => some (ω p).1)
      | none => ∀ t, loop c (streamEnv w wmax binom shuffle ω) fuel k s ≠ some (.ok t) := by
  intro fuel
  induction fuel with
  | zero =>
    intro k idx s hs hn hl harr
    unfold flow loop
    rw [← hn]
    by_cases h : c.n ≤ s.nProduced
    · simp only [if_pos h]
      exact ⟨s, rfl, by omega, by rw [← hn]; exact harr⟩
    · simp only [if_neg h]
      intro t ht
      cases ht
  | succ fuel ih =>
    intro k idx s hs hn hl harr
    unfold flow loop
    rw [← hn]
    by_cases h : c.n ≤ s.nProduced
    · simp only [if_pos h]
      exact ⟨s, rfl, by omega, by rw [← hn]; exact harr⟩
    · simp only [if_neg h]
      rw [← nToProduce_congr c s]
      rcases hm : nToProduce c s with e | m
      · simp only
        have : body c (streamEnv w wmax binom shuffle ω) k s = .error e := by
          unfold body
          rw [hm]
          rfl
        rw [this]
        intro t ht
        cases ht
      · simp only
        obtain ⟨t, ht, hI, ha, hp, hd, he⟩ := body_steady c w wmax binom shuffle ω b I hst k s hs m hm
        rw [ht]
        simp only
        obtain ⟨h1, h2⟩ := scatter_take s.arr s.nProduced
          ((picked (fun p => decide ((ω p).2 * b (ω p).1 < c.prob (ω p).1)) k m).map (fun p => (ω p).1)) hl
        rw [← ha, List.length_map, ← hp] at h1 h2
        have hlen : t.nProduced = pre.length + (idx ++ picked (fun p => decide ((ω p).2 * b (ω p).1 < c.prob (ω p).1)) k m).length := by
          rw [hp, hn, List.length_append]; omega
        have := ih (k + 1) (idx ++ picked (fun p => decide ((ω p).2 * b (ω p).1 < c.prob (ω p).1)) k m) t hI hlen h2 (by
          rw [h1, harr, List.map_append, List.append_assoc, List.map_map]
          rfl)
        rw [hd, he, hd, hlen] at this
        exact this

end Zfit.Sample
