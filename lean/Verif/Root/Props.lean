import Verif.Root.Lemmas
import Mathlib.Topology.Order.IntermediateValue
import Mathlib.Topology.Algebra.Order.Field
import Mathlib.Analysis.Real.Sqrt
import Mathlib.Tactic.NormNum
import Mathlib.Tactic.Ring

/-! Properties of the root search (C75) and of the bandwidth chosen with it (C76).

`brentq p left right` is the result of the search for a root of `p.f` in the bracket; `Tol p` says that the three
tolerances are not negative. -/

namespace Zfit.Root

variable {K : Type} [Field K] [LinearOrder K] [IsStrictOrderedRing K]

/-! ## C75: a reported root is a root -/

theorem brentq_end (p : Params K) (hp : Tol p) (l r : K) (h : p.f l * p.f r ≤ 0) :
    End p l r (loop p p.maxIter (initial p l r)) ∧ (loop p p.maxIter (initial p l r)).iters ≤ p.maxIter := by
  obtain ⟨i1, i2, i3, i4, i5⟩ := initial_values p l r
  cases hf : (initial p l r).finished with
  | true =>
    have e : loop p p.maxIter (initial p l r) = initial p l r := by
      cases p.maxIter with
      | zero => rfl
      | succ n => simp only [loop, hf, if_true]
    rw [e]
    refine ⟨⟨i1, i3, ?_⟩, by simp [initial]⟩
    have hf' : (decide (0 ≥ p.maxIter) || decide (|(initial p l r).fbest| ≤ p.ftol)) = true := hf
    simp only [Bool.or_eq_true, decide_eq_true_eq, ge_iff_le] at hf'
    rcases hf' with h1 | h1
    · exact Or.inr (Or.inl (h1.trans (Nat.zero_le _)))
    · exact Or.inl h1
  | false =>
    apply loop_good p hp l r p.maxIter (initial p l r) _ hf (by simp [initial])
    refine ⟨i1, i2, i3, i4, Or.inl ?_⟩
    rw [i5]
    refine lt_of_le_of_ne h ?_
    intro h0
    have hz : |(initial p l r).fbest| ≤ p.ftol := by
      have : (initial p l r).fbest = 0 := by
        have hfb : (initial p l r).fbest = if |p.f l| < |p.f r| then p.f l else p.f r := rfl
        rw [hfb]
        rcases mul_eq_zero.1 h0 with h0 | h0
        · by_cases hr : p.f r = 0
          · rw [h0, hr]; simp
          · rw [if_pos (by rw [h0, abs_zero]; exact abs_pos.2 hr), h0]
        · rw [h0, if_neg (by rw [abs_zero]; exact not_lt.2 (abs_nonneg _))]
      rw [this, abs_zero]
      exact hp.2.2
    have hf' : (decide (0 ≥ p.maxIter) || decide (|(initial p l r).fbest| ≤ p.ftol)) = false := hf
    rw [decide_eq_true hz, Bool.or_true] at hf'
    exact Bool.noConfusion hf'

/-- C75. If the function changes sign over the bracket (or vanishes at an end), then the reported root lies in the
bracket, the reported value is the function's value there, "converged" is reported exactly if that value is within the
function tolerance, and no more than the allowed iterations are made. Missing from the full statement: brackets without
a sign change (`brentq_no_sign_change_violated`). -/
theorem brentq_bracketed_partial (p : Params K) (hp : Tol p) (l r : K) (h : p.f l * p.f r ≤ 0) :
    min l r ≤ (brentq p l r).root ∧ (brentq p l r).root ≤ max l r ∧
    (brentq p l r).value = p.f (brentq p l r).root ∧
    ((brentq p l r).converged = true ↔ |p.f (brentq p l r).root| ≤ p.ftol) ∧
    (brentq p l r).iters ≤ p.maxIter := by
  obtain ⟨⟨h1, h2, -⟩, h3⟩ := brentq_end p hp l r h
  refine ⟨h2.1, h2.2, h1, ?_, h3⟩
  have e : (brentq p l r).converged = decide (|(brentq p l r).value| ≤ p.ftol) := rfl
  have e2 : (brentq p l r).value = p.f (brentq p l r).root := h1
  rw [e, e2, decide_eq_true_eq]

/-- C75. If the search stops without "converged" before the allowed iterations are used up, then the function has
opposite signs at the reported root and at a point of the bracket closer to it than the root tolerance. -/
theorem brentq_gives_up_only_near_sign_change (p : Params K) (hp : Tol p) (l r : K) (h : p.f l * p.f r ≤ 0)
    (hc : (brentq p l r).converged = false) (hi : (brentq p l r).iters < p.maxIter) :
    ∃ c, min l r ≤ c ∧ c ≤ max l r ∧ p.f (brentq p l r).root * p.f c < 0 ∧
      |c - (brentq p l r).root| < p.atol + p.rtol * |(brentq p l r).root| := by
  obtain ⟨⟨-, -, h3⟩, -⟩ := brentq_end p hp l r h
  rcases h3 with h3 | h3 | ⟨c, h4, h5, h6⟩
  · have e : (brentq p l r).converged = decide (|(loop p p.maxIter (initial p l r)).fbest| ≤ p.ftol) := rfl
    rw [e, decide_eq_true h3] at hc
    exact Bool.noConfusion hc
  · exact absurd h3 (not_le.2 hi)
  · exact ⟨c, h4.1, h4.2, h5, h6⟩

/-- C75, for continuous real functions: the search then stopped within the root tolerance of a true root. Missing from the full claim: the
cases of `brentq_no_sign_change_violated`. -/
theorem brentq_near_root_partial (p : Params ℝ) (hp : Tol p) (l r : ℝ) (h : p.f l * p.f r ≤ 0)
    (hcont : ContinuousOn p.f (Set.uIcc l r))
    (hi : (brentq p l r).iters < p.maxIter) :
    |p.f (brentq p l r).root| ≤ p.ftol ∨
    ∃ z, p.f z = 0 ∧ |z - (brentq p l r).root| < p.atol + p.rtol * |(brentq p l r).root| := by
  cases hc : (brentq p l r).converged with
  | true => exact Or.inl ((brentq_bracketed_partial p hp l r h).2.2.2.1.1 hc)
  | false =>
    right
    obtain ⟨c, h1, h2, h3, h4⟩ := brentq_gives_up_only_near_sign_change p hp l r h hc hi
    obtain ⟨b1, b2, -⟩ := brentq_bracketed_partial p hp l r h
    generalize (brentq p l r).root = x at *
    have hsub : Set.uIcc x c ⊆ Set.uIcc l r := Set.uIcc_subset_uIcc ⟨b1, b2⟩ ⟨h1, h2⟩
    have hivt := intermediate_value_uIcc (hcont.mono hsub)
    have h0 : (0 : ℝ) ∈ Set.uIcc (p.f x) (p.f c) := by
      rw [Set.mem_uIcc]
      rcases mul_neg_iff.1 h3 with ⟨ha, hb⟩ | ⟨ha, hb⟩
      · exact Or.inr ⟨hb.le, ha.le⟩
      · exact Or.inl ⟨ha.le, hb.le⟩
    obtain ⟨z, hz1, hz2⟩ := hivt h0
    refine ⟨z, hz2, lt_of_le_of_lt ?_ h4⟩
    rw [Set.mem_uIcc] at hz1
    rcases hz1 with ⟨u, v⟩ | ⟨u, v⟩
    · rw [abs_of_nonneg (by linarith), abs_of_nonneg (by linarith)]; linarith
    · rw [abs_of_nonpos (by linarith), abs_of_nonpos (by linarith)]; linarith

/-- The hypotheses are met by a quadratic, and the search finds its root up to the tolerance in a few iterations. -/
example : Tol ({ f := fun x => x * x - 2, maxIter := 100, atol := 1 / 1000000, rtol := 0, ftol := 1 / 1000 } : Params ℚ) ∧
    ((fun x : ℚ => x * x - 2) 0 * (fun x : ℚ => x * x - 2) 2 ≤ 0) ∧
    (brentq ({ f := fun x => x * x - 2, maxIter := 100, atol := 1 / 1000000, rtol := 0, ftol := 1 / 1000 } : Params ℚ)
      0 2).converged = true ∧
    (brentq ({ f := fun x => x * x - 2, maxIter := 100, atol := 1 / 1000000, rtol := 0, ftol := 1 / 1000 } : Params ℚ)
      0 2).iters ≤ 8 := by
  refine ⟨⟨by norm_num, by norm_num, by norm_num⟩, by norm_num, ?_, ?_⟩ <;> decide +kernel

/-- Hypotheses of the second theorem: a jump at one, found up to the root tolerance though the value never gets small. -/
example : (brentq ({ f := fun x => if x < 1 then -1 else 1, maxIter := 100, atol := 1 / 1000, rtol := 0, ftol := 1 / 1000 } :
      Params ℚ) 0 3).converged = false ∧
    (brentq ({ f := fun x => if x < 1 then -1 else 1, maxIter := 100, atol := 1 / 1000, rtol := 0, ftol := 1 / 1000 } :
      Params ℚ) 0 3).iters < 100 := by
  decide +kernel

/-- C75, the missing part: without a sign change over the bracket the search reports convergence, with the root zero and
the value zero, whatever the function and wherever the bracket. -/
theorem brentq_no_sign_change_violated (p : Params K) (hp : Tol p) (l r : K) (h : 0 < p.f l * p.f r)
    (hm : 0 < p.maxIter) (hl : p.ftol < |p.f l|) (hr : p.ftol < |p.f r|) :
    brentq p l r = { root := 0, value := 0, iters := 0, converged := true } := by
  obtain ⟨n, hn⟩ : ∃ n, p.maxIter = n + 1 := ⟨p.maxIter - 1, by omega⟩
  have hfb : p.ftol < |(initial p l r).fbest| := by
    change p.ftol < |(if |p.f l| < |p.f r| then p.f l else p.f r)|
    split <;> assumption
  have hfin : (initial p l r).finished = false := by
    change (decide (0 ≥ p.maxIter) || decide (|(initial p l r).fbest| ≤ p.ftol)) = false
    rw [decide_eq_false (by omega), decide_eq_false (not_le.2 hfb)]
    rfl
  have hprod := (initial_values p l r).2.2.2.2
  obtain ⟨s, hs⟩ : ∃ s, s = initial p l r := ⟨_, rfl⟩
  have hc : s.contra = 0 ∧ s.fcontra = 0 ∧ s.iters = 0 := by rw [hs]; exact ⟨rfl, rfl, rfl⟩
  rw [← hs] at hfb hfin hprod
  have e1 : replaceContra s = s := by
    have : ¬ s.flast * s.fbest < 0 := by rw [hprod]; exact not_lt.2 h.le
    simp only [replaceContra, hfin, decide_eq_false this, Bool.and_false, Bool.false_eq_true, if_false]
    rw [← hfin]
  have h0 : |s.fcontra| < |s.fbest| := by
    rw [hc.2.1, abs_zero]
    exact lt_of_le_of_lt hp.2.2 hfb
  have e2 : (replaceBest s).best = 0 ∧ (replaceBest s).fbest = 0 ∧ (replaceBest s).iters = 0 ∧
      (replaceBest s).finished = false := by
    simp only [replaceBest, hfin, Bool.not_false, Bool.true_and, decide_eq_true h0, if_true]
    exact ⟨hc.1, hc.2.1, hc.2.2, trivial⟩
  have e3 : finishes p (replaceBest s) = true := by
    simp only [finishes, e2.2.1, abs_zero, decide_eq_true hp.2.2, Bool.or_true]
  have e4 : loop p (n + 1) s = body p s := by
    simp only [loop, hfin, Bool.false_eq_true, if_false]
    have : (body p s).finished = true := by
      simp only [body, e1, advance]
      exact e3
    cases n with
    | zero => rfl
    | succ n => simp only [loop, this, if_true]
  unfold brentq
  rw [hn, ← hs, e4]
  simp only [results, body, e1, advance, e3, if_true, increment, add_zero, e2, abs_zero, decide_eq_true hp.2.2]

/-- A concrete bracket `[1, 2]` of a function without any root. -/
example : brentq ({ f := fun x => x, maxIter := 100, atol := 1 / 10000000, rtol := 0, ftol := 1 / 10000000 } : Params ℚ) 1 2 =
    { root := 0, value := 0, iters := 0, converged := true } := by decide +kernel

/-! ## C76: the bandwidth solves its fixed-point equation -/

/-- C76. Suppose the fixed-point function is not positive at zero and not negative from the first right bracket on.
Then, whatever number of rounds is needed, the returned `t` is `t_opt` of a point in `[0, ∞)` that satisfies the
equation `t = t_opt(t)` up to `2e-7`. Missing from the full statement: samples whose solution lies beyond the first right
bracket (`isj_bandwidth_zero_violated`). -/
theorem findRoot_solves_partial (tOpt : K → K) (right t : K) (fuel : Nat) (hr : 0 < right) (h0 : 0 ≤ tOpt 0)
    (hb : ∀ s, right ≤ s → tOpt s ≤ s) (h : findRoot (isjParams tOpt) right fuel = some t) :
    ∃ x, 0 ≤ x ∧ |x - tOpt x| ≤ 2 / 10000000 ∧ t = tOpt x := by
  have hp : Tol (isjParams tOpt) := by
    refine ⟨?_, ?_, ?_⟩ <;> (simp only [isjParams]; positivity)
  induction fuel generalizing right with
  | zero => simp [findRoot] at h
  | succ fuel ih =>
    simp only [findRoot] at h
    have hsign : (isjParams tOpt).f 0 * (isjParams tOpt).f right ≤ 0 := by
      simp only [isjParams, fixedPoint]
      have := hb right le_rfl
      exact mul_nonpos_of_nonpos_of_nonneg (by linarith) (by linarith)
    obtain ⟨b1, b2, b3, b4, -⟩ := brentq_bracketed_partial (isjParams tOpt) hp 0 right hsign
    by_cases hc : (brentq (isjParams tOpt) 0 right).converged = true
    · rw [if_pos hc] at h
      injection h with h
      refine ⟨(brentq (isjParams tOpt) 0 right).root, ?_, b4.1 hc, ?_⟩
      · rw [min_eq_left hr.le] at b1
        exact b1
      · rw [← h, b3]
        simp only [isjParams, fixedPoint]
        ring
    · rw [if_neg hc] at h
      exact ih (right * 2) (by linarith) (fun s hs => hb s (by linarith)) h

/-- The hypotheses are met: 1050 distinct points (first right bracket just above 0.01) and the solution `t = 0.004`. -/
example : (0 : ℚ) < rightBracket 1050 ∧ (∀ s, rightBracket 1050 ≤ s → (fun _ : ℚ => 4 / 1000) s ≤ s) ∧
    findRoot (isjParams fun _ : ℚ => 4 / 1000) (rightBracket 1050) 1 = some (4 / 1000) := by
  refine ⟨by decide +kernel, ?_, by decide +kernel⟩
  intro s hs
  have : (4 / 1000 : ℚ) ≤ rightBracket 1050 := by decide +kernel
  exact this.trans hs

/-- C76. The bracket is doubled exactly until a search reports convergence: the result is that of the first converged
search among the brackets `[0, right]`, `[0, 2 right]`, `[0, 4 right]`, ... -/
theorem findRoot_first_converged (p : Params K) (right t : K) (fuel : Nat) :
    findRoot p right fuel = some t ↔
    ∃ k < fuel, (∀ j < k, (brentq p 0 (right * 2 ^ j)).converged = false) ∧
      (brentq p 0 (right * 2 ^ k)).converged = true ∧
      t = (brentq p 0 (right * 2 ^ k)).root - (brentq p 0 (right * 2 ^ k)).value := by
  induction fuel generalizing right with
  | zero => simp [findRoot]
  | succ fuel ih =>
    simp only [findRoot]
    by_cases hc : (brentq p 0 right).converged = true
    · rw [if_pos hc]
      constructor
      · intro h
        injection h with h
        refine ⟨0, by omega, by intro j hj; omega, ?_, ?_⟩ <;> rw [pow_zero, mul_one]
        · exact hc
        · exact h.symm
      · rintro ⟨k, -, h1, -, h3⟩
        cases k with
        | zero => rw [h3, pow_zero, mul_one]
        | succ k =>
          have := h1 0 (by omega)
          rw [pow_zero, mul_one, hc] at this
          exact Bool.noConfusion this
    · rw [if_neg hc, ih]
      have e : ∀ j : Nat, right * 2 * 2 ^ j = right * 2 ^ (j + 1) := fun j => by rw [pow_succ]; ring
      simp only [e]
      constructor
      · rintro ⟨k, hk, h1, h2, h3⟩
        refine ⟨k + 1, by omega, ?_, h2, h3⟩
        intro j hj
        cases j with
        | zero => rw [pow_zero, mul_one]; exact Bool.not_eq_true _ ▸ hc
        | succ j => exact h1 j (by omega)
      · rintro ⟨k, hk, h1, h2, h3⟩
        cases k with
        | zero => rw [pow_zero, mul_one] at h2; exact absurd h2 hc
        | succ k => exact ⟨k, by omega, fun j hj => h1 (j + 1) (by omega), h2, h3⟩

/-- A case in which the search in the first bracket does not converge and that in the second does. -/
example : let p : Params ℚ := { f := fun x => if x ≤ 0 then -1 else if x = 3 / 2 then 0 else if x = 2 then 1 / 3 else 1,
                                maxIter := 1, atol := 0, rtol := 0, ftol := 1 / 5 }
    (brentq p 0 1).converged = false ∧ (brentq p 0 2).converged = true ∧ findRoot p 1 3 = some (3 / 2) := by
  decide +kernel

/-- C76, the missing part: if the solution lies beyond the first right bracket (`t_opt` exceeds it and zero by more than
`2e-7`), the bandwidth is zero. -/
theorem isj_bandwidth_zero_violated (tOpt : ℝ → ℝ) (N R : ℝ) (fuel : Nat) (hf : 0 < fuel) (h0 : 2 / 10000000 < tOpt 0)
    (h1 : rightBracket N + 2 / 10000000 < tOpt (rightBracket N)) :
    isjBandwidth Real.sqrt tOpt N R fuel = some 0 := by
  have hp : Tol (isjParams tOpt) := by
    refine ⟨?_, ?_, ?_⟩ <;> (simp only [isjParams]; positivity)
  obtain ⟨n, rfl⟩ : ∃ n, fuel = n + 1 := ⟨fuel - 1, by omega⟩
  have e := brentq_no_sign_change_violated (isjParams tOpt) hp 0 (rightBracket N)
    (by simp only [isjParams, fixedPoint]; exact mul_pos_of_neg_of_neg (by linarith) (by linarith))
    (by simp [isjParams])
    (by simp only [isjParams, fixedPoint]; rw [abs_of_neg (by linarith)]; linarith)
    (by simp only [isjParams, fixedPoint]; rw [abs_of_neg (by linarith)]; linarith)
  simp [isjBandwidth, findRoot, e]

/-- For every sample with at most 50 distinct points the first right bracket is `1e-11`. -/
theorem rightBracket_small (N : ℝ) (h : N ≤ 50) : rightBracket N = 10 / 1000000000000 := by
  unfold rightBracket
  rw [min_eq_right (by linarith), max_eq_right h]
  norm_num

/-- The first bracket grows linearly with the number of distinct points between 50 and 1050, from 1e-11 to a hundredth more, and is constant outside. -/
theorem rightBracket_spec (N : ℝ) :
    (N ≤ 50 → rightBracket N = 10 / 1000000000000) ∧ (1050 ≤ N → rightBracket N = 10 / 1000000000000 + 1 / 100) ∧
    (50 ≤ N → N ≤ 1050 → rightBracket N = 10 / 1000000000000 + (N - 50) / 100000) := by
  refine ⟨rightBracket_small N, fun h => ?_, fun h1 h2 => ?_⟩
  · unfold rightBracket
    rw [min_eq_left h, max_eq_left (by norm_num)]
    norm_num
  · unfold rightBracket
    rw [min_eq_right h2, max_eq_left h1]
    ring

/-- So a sample of 50 points whose fixed point is `t = 0.01` (bandwidth one tenth of the range) gets bandwidth zero. -/
example : isjBandwidth Real.sqrt (fun _ => 1 / 100) 50 1 1000 = some 0 := by
  apply isj_bandwidth_zero_violated _ _ _ _ (by norm_num) (by norm_num)
  rw [rightBracket_small 50 le_rfl]
  norm_num

end Zfit.Root
