import Verif.Num.McModel
import Mathlib.Tactic.FieldSimp
import Mathlib.Tactic.Ring
import Mathlib.Tactic.Linarith
import Mathlib.Tactic.Positivity

/-! Properties of Monte Carlo integration (C59). -/

namespace Zfit.Num

open Zfit

/-- The plain mean of the first `n` values. -/
noncomputable def plainMean (y : ℕ → ℝ) (n : ℕ) : ℝ := ((List.range n).map y).sum / n

theorem mean_step (y : ℕ → ℝ) (n k : ℕ) (hn : 0 < n) :
    plainMean y (k * n) * (k / ((k : ℝ) + 1)) + batchMean y (k * n) n / ((k : ℝ) + 1) = plainMean y ((k + 1) * n) := by
  unfold plainMean batchMean
  have hsum : ((List.range ((k + 1) * n)).map y).sum = ((List.range (k * n)).map y).sum + ((List.range' (k * n) n).map y).sum := by
    rw [show (k + 1) * n = k * n + n by ring, List.range_eq_range', List.range_eq_range', ← List.sum_append, ← List.map_append]
    congr 2
    have := List.range'_append_1 (s := 0) (m := k * n) (n := n)
    rw [Nat.zero_add] at this
    exact this.symm
  rw [hsum]
  have hn' : (n : ℝ) ≠ 0 := by positivity
  have hk1 : ((k : ℝ) + 1) ≠ 0 := by positivity
  rcases Nat.eq_zero_or_pos k with rfl | hk
  · simp
  · have hk' : (k : ℝ) ≠ 0 := by positivity
    push_cast
    field_simp

/-- What holds after every turn. -/
structure Good (m : Mc) (l : Loop) : Prop where
  total : l.ntot = l.i * m.nSamples
  mean : l.avg = plainMean m.y l.ntot ∨ l.i = 0 ∧ l.avg = 0

theorem good_start (m : Mc) : Good m Loop.start := ⟨by simp [Loop.start], Or.inr ⟨rfl, rfl⟩⟩

theorem good_body (m : Mc) (hn : 0 < m.nSamples) (l : Loop) (h : Good m l) :
    Good m (m.body l) ∧ (m.body l).avg = plainMean m.y (m.body l).ntot ∧ (m.body l).i = l.i + 1 ∧
      (m.body l).ntot = l.ntot + m.nSamples := by
  have key : (m.body l).avg = plainMean m.y (m.body l).ntot := by
    show l.avg / ((l.i : ℝ) + 1) * l.i + batchMean m.y l.ntot m.nSamples / ((l.i : ℝ) + 1) =
      plainMean m.y (l.ntot + m.nSamples)
    have h2 := mean_step m.y m.nSamples l.i hn
    have e : l.ntot + m.nSamples = (l.i + 1) * m.nSamples := by rw [h.total]; ring
    rw [e, ← h2, h.total]
    congr 1
    rcases h.mean with hm | ⟨hi, ha⟩
    · rw [hm, h.total]
      ring
    · rw [hi, ha]
      simp
  refine ⟨⟨?_, Or.inl key⟩, key, rfl, rfl⟩
  show l.ntot + m.nSamples = (l.i + 1) * m.nSamples
  rw [h.total]
  ring

theorem loop_good (m : Mc) (hn : 0 < m.nSamples) (fuel : ℕ) : ∀ l l', Good m l → m.loop fuel l = some l' →
    Good m l' ∧ ¬ m.goesOn l' ∧ (l'.ntot = l.ntot ∨ l'.ntot < m.maxDraws + m.nSamples) ∧ l.i ≤ l'.i ∧
      (m.goesOn l → 0 < l'.i) := by
  induction fuel with
  | zero => intro l l' _ h; cases h
  | succ fuel ih =>
    intro l l' hg h
    rw [Mc.loop] at h
    by_cases hc : m.goesOn l
    · rw [if_pos hc] at h
      obtain ⟨g1, _, g3, g4⟩ := good_body m hn l hg
      obtain ⟨a1, a2, a3, a4, _⟩ := ih _ l' g1 h
      refine ⟨a1, a2, Or.inr ?_, by omega, fun _ => by omega⟩
      have := hc.2
      rcases a3 with a3 | a3
      · rw [a3, g4]
        omega
      · exact a3
    · rw [if_neg hc] at h
      cases h
      exact ⟨hg, hc, Or.inl rfl, Nat.le_refl _, fun h => (hc h).elim⟩

/-- C59: the loop ends, whatever the function and the estimated errors are: after at most `maxDraws` turns. -/
theorem mc_terminates (m : Mc) (hn : 0 < m.nSamples) : ∃ l, ∀ fuel, m.maxDraws < fuel → m.loop fuel Loop.start = some l := by
  suffices H : ∀ (k : ℕ) (l : Loop), m.maxDraws ≤ l.ntot + k → ∃ l', ∀ fuel, k < fuel → m.loop fuel l = some l' from
    H m.maxDraws Loop.start (Nat.le_add_left _ _)
  intro k
  induction k with
  | zero =>
    intro l hl
    refine ⟨l, ?_⟩
    intro fuel hf
    obtain ⟨fuel, rfl⟩ := Nat.exists_eq_succ_of_ne_zero (Nat.ne_of_gt hf)
    rw [Mc.loop, if_neg]
    rintro ⟨_, h⟩
    omega
  | succ k ih =>
    intro l hl
    by_cases hc : m.goesOn l
    · obtain ⟨l', hl'⟩ := ih (m.body l) (by show m.maxDraws ≤ l.ntot + m.nSamples + k; omega)
      refine ⟨l', ?_⟩
      intro fuel hf
      obtain ⟨fuel, rfl⟩ := Nat.exists_eq_succ_of_ne_zero (Nat.ne_of_gt (Nat.lt_of_le_of_lt (Nat.zero_le _) hf))
      rw [Mc.loop, if_pos hc]
      exact hl' fuel (by omega)
    · refine ⟨l, ?_⟩
      intro fuel hf
      obtain ⟨fuel, rfl⟩ := Nat.exists_eq_succ_of_ne_zero (Nat.ne_of_gt (Nat.lt_of_le_of_lt (Nat.zero_le _) hf))
      rw [Mc.loop, if_neg hc]

/-- C59: when the loop ends, after at least one batch, the average is the plain mean of the function over all points drawn
(so all batches count equally), the points are consecutive from the first, the budget is exceeded by less than one batch,
and the loop ends because the estimated error is within the tolerance or the budget is used up. -/
theorem mc_average (m : Mc) (hn : 0 < m.nSamples) (ht : m.tol < 9999) (hb : 0 < m.maxDraws) (fuel : ℕ) (l : Loop)
    (h : m.loop fuel Loop.start = some l) :
    0 < l.i ∧ l.ntot = l.i * m.nSamples ∧ l.avg = plainMean m.y l.ntot ∧ l.ntot < m.maxDraws + m.nSamples ∧
    (l.error ≤ m.tol ∨ m.maxDraws ≤ l.ntot) := by
  obtain ⟨h1, h2, h3, h4, h5⟩ := loop_good m hn fuel _ l (good_start m) h
  have hpos := h5 ⟨ht, hb⟩
  refine ⟨hpos, h1.total, ?_, ?_, ?_⟩
  · rcases h1.mean with hm | ⟨hi, _⟩
    · exact hm
    · omega
  · rcases h3 with h3 | h3
    · rw [h3]
      show 0 < _
      omega
    · exact h3
  · by_contra hc
    push Not at hc
    exact h2 ⟨hc.1, hc.2⟩

/-- C59: with `vectorizable` exactly one batch is averaged. -/
theorem mc_vectorizable (m : Mc) (hn : 0 < m.nSamples) (fuel : ℕ) :
    m.average true fuel = some (plainMean m.y m.nSamples) := by
  obtain ⟨_, h, _, h4⟩ := good_body m hn _ (good_start m)
  show some (m.body Loop.start).avg = _
  rw [h, h4]
  simp [Loop.start]

/-- C59: in chunks: the mean over all points of all chunks. -/
theorem mc_chunked (y : ℕ → ℝ) (batchSize numBatches : ℕ) (hb : 0 < batchSize) (hn : 0 < numBatches) :
    chunked y batchSize numBatches = plainMean y (numBatches * batchSize) := by
  have H : ∀ n, chunked y batchSize (n + 1) = plainMean y ((n + 1) * batchSize) := by
    intro n
    induction n with
    | zero =>
      have := mean_step y batchSize 0 hb
      rw [← this]
      simp [chunked, chunkBody, List.range_succ]
    | succ n ih =>
      unfold chunked at ih ⊢
      rw [List.range_succ, List.foldl_append, ih]
      simp only [List.foldl_cons, List.foldl_nil]
      rw [← mean_step y batchSize (n + 1) hb]
      unfold chunkBody
      have h1 : (((n + 1 : ℕ) : ℝ) + 1) ≠ 0 := by positivity
      field_simp
      ring
  obtain ⟨n, rfl⟩ := Nat.exists_eq_succ_of_ne_zero (Nat.ne_of_gt hn)
  exact H n

/-- C59: the chunks together contain at least the requested number of points, each is at most `chunksize` long, and fewer
than one point per chunk is added. -/
theorem mc_chunks (n c : ℕ) (hc : 0 < c) (hn : c < n) :
    n ≤ (chunks n c).1 * (chunks n c).2 ∧ (chunks n c).1 ≤ c ∧ (chunks n c).1 * (chunks n c).2 < n + (chunks n c).2 ∧
    0 < (chunks n c).1 := by
  obtain ⟨k, hk⟩ : ∃ k, k = (n + c - 1) / c := ⟨_, rfl⟩
  have hk0 : 0 < k := by
    rw [hk]
    exact Nat.div_pos (by omega) hc
  have hkn : n ≤ k * c := by
    have := Nat.lt_div_mul_add hc (a := n + c - 1)
    rw [← hk] at this
    omega
  obtain ⟨b, hb⟩ : ∃ b, b = (n + k - 1) / k := ⟨_, rfl⟩
  have e : chunks n c = (b, k) := by
    unfold chunks
    rw [← hk]
    simp only
    rw [← hb]
  rw [e]
  have h1 := Nat.lt_div_mul_add hk0 (a := n + k - 1)
  have h2 := Nat.div_mul_le_self (n + k - 1) k
  rw [← hb] at h1 h2
  refine ⟨by simp only; omega, ?_, by simp only; omega, ?_⟩
  · rw [hb]
    apply Nat.le_of_lt_succ
    rw [Nat.div_lt_iff_lt_mul hk0]
    have : (c + 1) * k = k * c + k := by ring
    show n + k - 1 < (c + 1) * k
    omega
  · rw [hb]
    exact Nat.div_pos (by omega) hk0

/-- A case meeting the hypotheses: the estimated error is 1 at first and 0 from 20 points on, so two batches of ten are
drawn although up to 1000 points would be allowed. -/
example : ∃ m : Mc, 0 < m.nSamples ∧ m.tol < 9999 ∧ 0 < m.maxDraws ∧ (m.loop 5 Loop.start).map (·.ntot) = some 20 := by
  classical
  refine ⟨⟨fun j => j, fun _ _ => 1, fun _ n => if n < 20 then 1 else 0, 1 / 2, 1000, 10⟩, by norm_num, by norm_num,
    by norm_num, ?_⟩
  simp [Mc.loop, Mc.goesOn, Mc.body, Loop.start]
  norm_num

/-- Without a budget no point is drawn and the integral is 0. -/
theorem mc_no_budget (m : Mc) (hb : m.maxDraws = 0) (fuel : ℕ) : m.average false (fuel + 1) = some 0 := by
  simp [Mc.average, Mc.loop, Mc.goesOn, Loop.start, hb]

end Zfit.Num
