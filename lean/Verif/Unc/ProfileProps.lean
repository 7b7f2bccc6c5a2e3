import Verif.Unc.Props
import Mathlib.Data.Real.Sqrt
import Mathlib.Data.Fin.VecNotation

/-!
# Properties of the errors from the profile of the loss

* C130: `root_sound`, `root_repeated`, `new_minimum_sound`, `equations_sound`, `parabola_errors_partial`; `profile_not_minimised_violated`
* C131: `start_within`, `start_missing`, `start_unlimited`
-/

namespace Zfit.Unc

open Zfit Matrix

variable {n : Type} [Fintype n] [DecidableEq n]

/-! ### Specification -/

/-- The loss at a point, as far as it can be evaluated, has risen by `errordef * sigma²` up to the tolerance. -/
def Search.AtLevel (s : Search n) (x : n → ℝ) : Prop :=
  |(s.loss x).getD 9999999999 - s.fmin - s.errordef * s.sigma ^ 2| < s.rtol

/-- The point is on the given side of the minimum (or exactly at its value). -/
def OnSide (side : Side) (x v : ℝ) : Prop :=
  match side with
  | .lower => x ≤ v
  | .upper => v ≤ x

/-- `fmin` is the minimum: nowhere is the loss lower, up to the tolerance. -/
def Search.Minimum (s : Search n) : Prop := ∀ x v, s.loss x = some v → s.fmin - s.minTol ≤ v

/-- The tolerances are small compared with the change of the loss that is looked for. -/
def Search.Fine (s : Search n) : Prop :=
  0 ≤ s.minTol ∧ s.minTol + s.rtol ≤ s.errordef * s.sigma ^ 2 ∧ s.fmin ≤ 9999999999

omit [Fintype n] [DecidableEq n] in
private theorem not_beyond {side : Side} {x v : ℝ} (h : ¬ side.beyond x v) : OnSide side x v := by
  cases side <;> exact not_lt.1 h

omit [Fintype n] [DecidableEq n] in
private theorem zeroed_ge {s : Search n} (hm : s.Minimum) (hf : s.Fine) (x : n → ℝ) : -s.minTol ≤ s.zeroed x := by
  unfold Search.zeroed
  cases h : s.loss x with
  | none =>
    simp only [Option.getD_none]
    linarith [hf.1, hf.2.2]
  | some v =>
    simp only [Option.getD_some]
    linarith [hm x v h]

omit [Fintype n] [DecidableEq n] in
/-- What an evaluation that is within the tolerance means, if `fmin` is the minimum. -/
private theorem within {s : Search n} (hm : s.Minimum) (hf : s.Fine) (side : Side) (x : n → ℝ)
    (h : (open Classical in |(if side.beyond (x s.poi) (s.values s.poi) then -s.zeroed x else s.zeroed x)
      - s.errordef * s.sigma ^ 2|) < s.rtol) : OnSide side (x s.poi) (s.values s.poi) ∧ s.AtLevel x := by
  by_cases hb : side.beyond (x s.poi) (s.values s.poi)
  · rw [if_pos hb] at h
    have := (abs_lt.1 h).1
    linarith [zeroed_ge hm hf x, hf.2.1]
  · rw [if_neg hb] at h
    exact ⟨not_beyond hb, h⟩

omit [Fintype n] [DecidableEq n] in
private theorem evaluate_cases (s : Search n) (side : Side) (k : Nat) (x : n → ℝ) :
    (∃ j sh g, s.evaluate side k x = (j, .go sh g) ∧ (j = 0 ∨ (j = k + 1 ∧ k ≤ 3 ∧
      (open Classical in |(if side.beyond (x s.poi) (s.values s.poi) then -s.zeroed x else s.zeroed x)
        - s.errordef * s.sigma ^ 2|) < s.rtol))) ∨
    (s.evaluate side k x = (k, .rootFound (x s.poi)) ∧ 3 < k ∧
      (open Classical in |(if side.beyond (x s.poi) (s.values s.poi) then -s.zeroed x else s.zeroed x)
        - s.errordef * s.sigma ^ 2|) < s.rtol) ∨
    (s.evaluate side k x = (k, .newMinimum x) ∧ ¬ side.beyond (x s.poi) (s.values s.poi) ∧ s.zeroed x < -s.minTol) := by
  classical
  unfold Search.evaluate
  dsimp only
  by_cases h1 : ¬ side.beyond (x s.poi) (s.values s.poi) ∧
      (if side.beyond (x s.poi) (s.values s.poi) then -s.zeroed x else s.zeroed x) < -s.minTol
  · right; right
    rw [if_pos h1]
    refine ⟨rfl, h1.1, ?_⟩
    have := h1.2
    rwa [if_neg h1.1] at this
  · rw [if_neg h1]
    by_cases h2 : |(if side.beyond (x s.poi) (s.values s.poi) then -s.zeroed x else s.zeroed x)
        - s.errordef * s.sigma ^ 2| < s.rtol
    · rw [if_pos h2]
      by_cases h3 : 3 < k
      · right; left
        rw [if_pos h3]
        exact ⟨rfl, h3, h2⟩
      · left
        rw [if_neg h3]
        exact ⟨_, _, _, rfl, Or.inr ⟨rfl, not_lt.1 h3, h2⟩⟩
    · left
      rw [if_neg h2]
      exact ⟨_, _, _, rfl, Or.inl rfl⟩

/-! ### C130 -/

omit [Fintype n] [DecidableEq n] in
/-- C130: a root that is found (rather than returned by the root finder at its own discretion) is the value of the
parameter at a point that was evaluated, on the side that was asked for, and where the loss has risen by
`errordef * sigma²` within the tolerance. -/
theorem root_sound (s : Search n) (hm : s.Minimum) (hf : s.Fine) (side : Side) (xs : List (n → ℝ)) (final : n → ℝ)
    (k : Nat) (v : ℝ) (h : (s.run side k xs final).2 = .root v) :
    (∃ x ∈ xs, v = x s.poi ∧ OnSide side v (s.values s.poi) ∧ s.AtLevel x) ∨ v = final s.poi := by
  induction xs generalizing k with
  | nil =>
    right
    simp only [Search.run, End.root.injEq] at h
    exact h.symm
  | cons x xs ih =>
    unfold Search.run at h
    rcases evaluate_cases s side k x with ⟨j, sh, g, he, -⟩ | ⟨he, -, hw⟩ | ⟨he, -, -⟩
    · rw [he] at h
      rcases ih j h with ⟨y, hy, h'⟩ | h'
      · exact Or.inl ⟨y, List.mem_cons_of_mem _ hy, h'⟩
      · exact Or.inr h'
    · rw [he] at h
      simp only [End.root.injEq] at h
      subst h
      obtain ⟨h1, h2⟩ := within hm hf side x hw
      exact Or.inl ⟨x, List.mem_cons_self, rfl, h1, h2⟩
    · rw [he] at h
      cases h

omit [Fintype n] [DecidableEq n] in
private theorem run_root_suffix (s : Search n) (hm : s.Minimum) (hf : s.Fine) (side : Side) (final : n → ℝ) :
    ∀ (xs pre : List (n → ℝ)) (k : Nat), k ≤ 4 → k ≤ pre.length → (∀ x ∈ pre.drop (pre.length - k), s.AtLevel x) →
      (∀ j g, s.run side k xs final ≠ (j, .root g) ∨
        (∃ a b x, pre ++ xs = a ++ b ++ x :: (pre ++ xs).drop (a.length + 5) ∧ b.length = 4 ∧ g = x s.poi ∧
          ∀ y ∈ b ++ [x], s.AtLevel y) ∨ g = final s.poi) := by
  intro xs
  induction xs with
  | nil =>
    intro pre k _ _ _ j g
    by_cases h : s.run side k [] final = (j, .root g)
    · right; right
      simp only [Search.run, Prod.mk.injEq, End.root.injEq] at h
      exact h.2.symm
    · exact Or.inl h
  | cons x xs ih =>
    intro pre k hk hkl hpre j g
    unfold Search.run
    rcases evaluate_cases s side k x with ⟨i, sh, gr, he, hi⟩ | ⟨he, h3, hw⟩ | ⟨he, -, -⟩
    · rw [he]
      have hpx : pre ++ x :: xs = (pre ++ [x]) ++ xs := by simp
      rw [hpx]
      rcases hi with rfl | ⟨rfl, h3, hw⟩
      · exact ih (pre ++ [x]) 0 (by omega) (by omega) (by simp) j g
      · refine ih (pre ++ [x]) (k + 1) (by omega) (by simp; omega) ?_ j g
        intro y hy
        rw [List.length_append, List.length_singleton, Nat.add_sub_add_right, List.drop_append_of_le_length (by omega)] at hy
        rcases List.mem_append.1 hy with hy | hy
        · exact hpre y hy
        · rw [List.mem_singleton] at hy
          rw [hy]
          exact (within hm hf side x hw).2
    · rw [he]
      by_cases h : (k, End.root (n := n) (x s.poi)) = (j, .root g)
      · right; left
        simp only [Prod.mk.injEq, End.root.injEq] at h
        have hk4 : k = 4 := by omega
        subst hk4
        refine ⟨pre.take (pre.length - 4), pre.drop (pre.length - 4), x, ?_, by simp; omega, h.2.symm, ?_⟩
        · have h5 : (pre.take (pre.length - 4)).length + 5 = pre.length + 1 := by
            rw [List.length_take]; omega
          rw [h5, List.take_append_drop]
          congr 1
          rw [List.drop_append, List.drop_eq_nil_of_le (by omega)]
          simp
        · intro y hy
          rcases List.mem_append.1 hy with hy | hy
          · exact hpre y hy
          · rw [List.mem_singleton] at hy
            rw [hy]
            exact (within hm hf side x hw).2
      · exact Or.inl h
    · rw [he]
      left
      intro h
      simp only [Prod.mk.injEq] at h
      cases h.2

omit [Fintype n] [DecidableEq n] in
/-- C130: after an evaluation that is not within the tolerance, a root is only found by five evaluations in a row that are;
the very first evaluation suffices if it is. -/
theorem root_repeated (s : Search n) (hm : s.Minimum) (hf : s.Fine) (side : Side) (xs : List (n → ℝ)) (final : n → ℝ)
    (v : ℝ) (h : (s.run side 0 xs final).2 = .root v) :
    (∃ a b x c, xs = a ++ b ++ x :: c ∧ b.length = 4 ∧ v = x s.poi ∧ ∀ y ∈ b ++ [x], s.AtLevel y) ∨ v = final s.poi := by
  rcases run_root_suffix s hm hf side final xs [] 0 (by omega) (by simp) (by simp) (s.run side 0 xs final).1 v with
    h' | ⟨a, b, x, h1, h2⟩ | h'
  · exact absurd (show s.run side 0 xs final = ((s.run side 0 xs final).1, .root v) from Prod.ext rfl h) h'
  · exact Or.inl ⟨a, b, x, _, h1, h2⟩
  · exact Or.inr h'

omit [Fintype n] [DecidableEq n] in
/-- C130: a new minimum is reported only where the loss is lower than the minimum, by more than the tolerance; never if
`fmin` is the minimum. -/
theorem new_minimum_sound (s : Search n) (side : Side) (xs : List (n → ℝ)) (final : n → ℝ) (k : Nat) (y : n → ℝ)
    (h : (s.run side k xs final).2 = .newMinimum y) :
    y ∈ xs ∧ (s.loss y).getD 9999999999 < s.fmin - s.minTol := by
  induction xs generalizing k with
  | nil => cases h
  | cons x xs ih =>
    unfold Search.run at h
    rcases evaluate_cases s side k x with ⟨j, sh, g, he, -⟩ | ⟨he, -, hw⟩ | ⟨he, -, hz⟩
    · rw [he] at h
      obtain ⟨h1, h2⟩ := ih j h
      exact ⟨List.mem_cons_of_mem _ h1, h2⟩
    · rw [he] at h
      cases h
    · rw [he] at h
      simp only [End.newMinimum.injEq] at h
      subst h
      refine ⟨List.mem_cons_self, ?_⟩
      unfold Search.zeroed at hz
      linarith

omit [Fintype n] [DecidableEq n] in
/-- C130: where the equations that the root finder is given are solved exactly, the point is on the side that was asked for,
the loss is at the level, and it is stationary in all other parameters. -/
theorem equations_sound (s : Search n) (hm : s.Minimum) (hf : s.Fine) (hr : 0 < s.rtol) (side : Side) (k j : Nat)
    (x : n → ℝ) (g : n → ℝ) (h : s.evaluate side k x = (j, .go 0 g)) (hg : ∀ i, i ≠ s.poi → g i = 0) :
    OnSide side (x s.poi) (s.values s.poi) ∧ (s.loss x).getD 9999999999 = s.fmin + s.errordef * s.sigma ^ 2 ∧
    ∀ i, i ≠ s.poi → s.grad x i = 0 := by
  classical
  unfold Search.evaluate at h
  dsimp only at h
  have hsh : (if side.beyond (x s.poi) (s.values s.poi) then -s.zeroed x else s.zeroed x) - s.errordef * s.sigma ^ 2 = 0 ∧
      (if side.beyond (x s.poi) (s.values s.poi) then fun i => -s.grad x i else s.grad x) = g := by
    generalize (if side.beyond (x s.poi) (s.values s.poi) then -s.zeroed x else s.zeroed x) = z at h ⊢
    generalize (if side.beyond (x s.poi) (s.values s.poi) then fun i => -s.grad x i else s.grad x) = g' at h ⊢
    by_cases h1 : ¬ side.beyond (x s.poi) (s.values s.poi) ∧ z < -s.minTol
    · rw [if_pos h1] at h
      cases h
    · rw [if_neg h1] at h
      by_cases h2 : |z - s.errordef * s.sigma ^ 2| < s.rtol
      · rw [if_pos h2] at h
        by_cases h3 : 3 < k
        · rw [if_pos h3] at h
          cases h
        · rw [if_neg h3] at h
          simp only [Prod.mk.injEq, Out.go.injEq] at h
          exact h.2
      · rw [if_neg h2] at h
        simp only [Prod.mk.injEq, Out.go.injEq] at h
        exact h.2
  have hw := within hm hf side x (by rw [hsh.1, abs_zero]; exact hr)
  have hnb : ¬ side.beyond (x s.poi) (s.values s.poi) := by
    intro hb
    have h1 := hsh.1
    rw [if_pos hb] at h1
    have := zeroed_ge hm hf x
    linarith [hf.2.1]
  refine ⟨hw.1, ?_, fun i hi => ?_⟩
  · have h1 := hsh.1
    rw [if_neg hnb] at h1
    unfold Search.zeroed at h1
    linarith
  · rw [← hg i hi, ← hsh.2, if_neg hnb]

/-! ### The start -/

/-- C131: a start is within the limits, in the direction of the step and not further away than it. -/
theorem start_within (lower upper : Option ℝ) (v : ℝ) (k : Nat) (step y : ℝ) (h : trial lower upper v k step = some y) :
    (∀ l, lower = some l → l ≤ y) ∧ (∀ u, upper = some u → y ≤ u) ∧
    ∃ c, 0 < c ∧ c ≤ 1 ∧ y = v + c * step := by
  induction k generalizing step with
  | zero => cases h
  | succ k ih =>
    unfold trial at h
    split at h
    · obtain ⟨h1, h2, c, hc, hc', he⟩ := ih _ h
      exact ⟨h1, h2, c * (4 / 5), by linarith, by linarith, by rw [he]; ring⟩
    · rename_i hin
      simp only [Option.some.injEq] at h
      subst h
      push Not at hin
      exact ⟨fun l hl => hin.1 l hl, fun u hu => hin.2 u hu, 1, one_pos, le_refl _, by ring⟩

/-- C131: without a start all the steps that were tried lead outside of the limits; in particular there is none for a
parameter that is at the limit in this direction. -/
theorem start_missing (lower upper : Option ℝ) (v : ℝ) (k : Nat) (step : ℝ) :
    (trial lower upper v k step = none ↔ ∀ j < k, (∃ l, lower = some l ∧ v + step * (4 / 5) ^ j < l) ∨
      (∃ u, upper = some u ∧ u < v + step * (4 / 5) ^ j)) ∧
    (upper = some v → 0 < step → trial lower upper v k step = none) ∧
    (lower = some v → step < 0 → trial lower upper v k step = none) := by
  have key : ∀ (k : Nat) (step : ℝ), trial lower upper v k step = none ↔ ∀ j < k,
      (∃ l, lower = some l ∧ v + step * (4 / 5) ^ j < l) ∨ (∃ u, upper = some u ∧ u < v + step * (4 / 5) ^ j) := by
    intro k
    induction k with
    | zero => intro step; simp [trial]
    | succ k ih =>
      intro step
      unfold trial
      have hshift : ∀ j, step * (4 / 5) * (4 / 5 : ℝ) ^ j = step * (4 / 5) ^ (j + 1) := fun j => by ring
      split
      · rename_i h0
        rw [ih]
        simp only [hshift]
        constructor
        · intro h j hj
          cases j with
          | zero => simpa using h0
          | succ j => exact h j (by omega)
        · intro h j hj
          exact h (j + 1) (by omega)
      · rename_i h0
        constructor
        · intro h; cases h
        · intro h
          exact absurd (by simpa using h 0 (by omega)) h0
  refine ⟨key k step, fun hu hs => (key k step).2 fun j _ => Or.inr ⟨v, hu, ?_⟩,
    fun hl hs => (key k step).2 fun j _ => Or.inl ⟨v, hl, ?_⟩⟩
  · have : 0 < step * (4 / 5 : ℝ) ^ j := by positivity
    linarith
  · have : 0 < -step * (4 / 5 : ℝ) ^ j := mul_pos (by linarith) (by positivity)
    linarith

/-- C131: the start of a search respects the limits of its own parameter, in the direction of the side; there is none exactly if the 50
steps from where a parabola has the level, each a fifth shorter, lead outside of them. -/
theorem search_start_limits (s : Search n) (cov : Matrix n n ℝ) (lower upper : n → Option ℝ) (side : Side) (j : n) :
    (∀ y, s.start cov lower upper side j = some y → (∀ l, lower j = some l → l ≤ y) ∧ (∀ u, upper j = some u → y ≤ u) ∧
      ∃ c, 0 < c ∧ c ≤ 1 ∧
        y = s.values j + c * (side.dir * (cov s.poi j * Real.sqrt (2 * s.errordef / cov s.poi s.poi)) * s.sigma)) ∧
    (s.start cov lower upper side j = none ↔ ∀ k < 50,
      (∃ l, lower j = some l ∧
        s.values j + side.dir * (cov s.poi j * Real.sqrt (2 * s.errordef / cov s.poi s.poi)) * s.sigma * (4 / 5) ^ k < l) ∨
      (∃ u, upper j = some u ∧
        u < s.values j + side.dir * (cov s.poi j * Real.sqrt (2 * s.errordef / cov s.poi s.poi)) * s.sigma * (4 / 5) ^ k)) :=
  ⟨fun y hy => start_within _ _ _ _ _ y hy, (start_missing _ _ _ _ _).1⟩

/-- C131: without limits the start is where a parabola would have the level. -/
theorem start_unlimited (s : Search n) (cov : Matrix n n ℝ) (lower upper : n → Option ℝ) (side : Side) (j : n)
    (hl : lower j = none) (hu : upper j = none) :
    s.start cov lower upper side j =
      some (s.values j + side.dir * (cov s.poi j * Real.sqrt (2 * s.errordef / cov s.poi s.poi)) * s.sigma) := by
  unfold Search.start
  simp only [hl, hu]
  unfold trial
  rw [if_neg (by simp)]

example : trial none (some 1) 0 50 (5 / 4) = some 1 := by
  unfold trial
  rw [if_pos (Or.inr ⟨1, rfl, by norm_num⟩)]
  unfold trial
  rw [if_neg (by
    rintro (⟨l, h, -⟩ | ⟨u, h, h'⟩)
    · cases h
    · rw [Option.some.injEq] at h
      rw [← h] at h'
      norm_num at h')]
  norm_num

/-! ### Parabolas -/

private theorem start_point {H : Matrix n n ℝ} (h : Definite H) (x0 : n → ℝ) (i : n) (f0 errordef t : ℝ) (he : 0 ≤ errordef) :
    parabola f0 x0 H (fun j => x0 j + t * (H⁻¹ i j * Real.sqrt (2 * errordef / H⁻¹ i i))) = f0 + errordef * t ^ 2 := by
  have hv := inv_diag_pos h i
  have hsym : (H⁻¹)ᵀ = H⁻¹ := by rw [Matrix.transpose_nonsing_inv, h.1]
  have hd : (fun j => x0 j + t * (H⁻¹ i j * Real.sqrt (2 * errordef / H⁻¹ i i))) - x0
      = (t * Real.sqrt (2 * errordef / H⁻¹ i i)) • (H⁻¹ *ᵥ Pi.single i 1) := by
    funext j
    rw [Pi.sub_apply, Pi.smul_apply, Matrix.mulVec_single_one]
    have : H⁻¹ i j = (H⁻¹).col i j := by
      show H⁻¹ i j = H⁻¹ j i
      exact congrFun (congrFun hsym j) i
    rw [this, smul_eq_mul]
    ring
  unfold parabola
  have hcol : H *ᵥ (H⁻¹ *ᵥ Pi.single i 1) = Pi.single i 1 := by
    rw [Matrix.mulVec_mulVec, (definite_inv h).1, Matrix.one_mulVec]
  rw [hd, Matrix.mulVec_smul, hcol, dotProduct_smul, smul_dotProduct, dotProduct_single, mul_one,
    Matrix.mulVec_single_one]
  show f0 + (t * √(2 * errordef / H⁻¹ i i)) • (t * √(2 * errordef / H⁻¹ i i)) • (H⁻¹) i i / 2 = f0 + errordef * t ^ 2
  simp only [smul_eq_mul]
  have hs : √(2 * errordef / H⁻¹ i i) * √(2 * errordef / H⁻¹ i i) = 2 * errordef / H⁻¹ i i :=
    Real.mul_self_sqrt (by positivity)
  have : t * √(2 * errordef / H⁻¹ i i) * (t * √(2 * errordef / H⁻¹ i i) * H⁻¹ i i)
      = t ^ 2 * (√(2 * errordef / H⁻¹ i i) * √(2 * errordef / H⁻¹ i i)) * H⁻¹ i i := by ring
  rw [this, hs]
  field_simp

/-- C130, the proved part of the claim that the errors are those of the profile: for a parabola without limits, with the
covariance from its second derivatives, both errors are found at the first evaluation and are the errors. Missing from the full claim: the
cases of `profile_not_minimised_violated`. -/
theorem parabola_errors_partial {H : Matrix n n ℝ} (h : Definite H) (s : Search n) (f0 : ℝ)
    (hl : ∀ x, s.loss x = some (parabola f0 s.values H x)) (hf : s.fmin = f0) (he : 0 < s.errordef) (hs : 0 < s.sigma)
    (hr : 0 < s.rtol) (ht : 0 ≤ s.minTol) (lowers uppers : List (n → ℝ)) (lf uf : n → ℝ) (l u : n → ℝ)
    (hlow : ∀ j, s.start H⁻¹ (fun _ => none) (fun _ => none) .lower j = some (l j))
    (hupp : ∀ j, s.start H⁻¹ (fun _ => none) (fun _ => none) .upper j = some (u j)) :
    ∃ e, s.errors (l :: lowers) (u :: uppers) lf uf = .ok (-e, e) ∧ 0 < e ∧
      IsError (parabola f0 s.values H) s.values s.errordef s.sigma s.poi e := by
  have hv := inv_diag_pos h s.poi
  have hul : ∀ j, l j = s.values j + (-s.sigma) * (H⁻¹ s.poi j * Real.sqrt (2 * s.errordef / H⁻¹ s.poi s.poi)) := by
    intro j
    have := hlow j
    rw [start_unlimited s H⁻¹ (fun _ => none) (fun _ => none) .lower j rfl rfl] at this
    simp only [Option.some.injEq] at this
    rw [← this]
    simp only [Side.dir]
    ring
  have huu : ∀ j, u j = s.values j + s.sigma * (H⁻¹ s.poi j * Real.sqrt (2 * s.errordef / H⁻¹ s.poi s.poi)) := by
    intro j
    have := hupp j
    rw [start_unlimited s H⁻¹ (fun _ => none) (fun _ => none) .upper j rfl rfl] at this
    simp only [Option.some.injEq] at this
    rw [← this]
    simp only [Side.dir]
    ring
  let e := s.sigma * (H⁻¹ s.poi s.poi * Real.sqrt (2 * s.errordef / H⁻¹ s.poi s.poi))
  have hepos : 0 < e := mul_pos hs (mul_pos hv (Real.sqrt_pos.2 (by positivity)))
  have hzl : s.zeroed l = s.errordef * s.sigma ^ 2 := by
    unfold Search.zeroed
    have : l = fun j => s.values j + (-s.sigma) * (H⁻¹ s.poi j * Real.sqrt (2 * s.errordef / H⁻¹ s.poi s.poi)) := funext hul
    rw [hl, this, start_point h s.values s.poi f0 s.errordef _ he.le, hf]
    simp
  have hzu : s.zeroed u = s.errordef * s.sigma ^ 2 := by
    unfold Search.zeroed
    have : u = fun j => s.values j + s.sigma * (H⁻¹ s.poi j * Real.sqrt (2 * s.errordef / H⁻¹ s.poi s.poi)) := funext huu
    rw [hl, this, start_point h s.values s.poi f0 s.errordef _ he.le, hf]
    simp
  have hlv : l s.poi = s.values s.poi - e := by rw [hul]; simp only [e]; ring
  have huv : u s.poi = s.values s.poi + e := huu s.poi
  have hpos : 0 < s.errordef * s.sigma ^ 2 := by positivity
  have hel : s.evaluate .lower 999 l = (999, .rootFound (l s.poi)) := by
    have hnb : ¬ Side.beyond .lower (l s.poi) (s.values s.poi) := by
      show ¬ s.values s.poi < l s.poi
      rw [hlv]; linarith
    unfold Search.evaluate
    simp only [hnb, if_false, hzl, not_false_eq_true, true_and, sub_self, abs_zero, hr, if_true]
    rw [if_neg (by linarith)]
    norm_num
  have heu : s.evaluate .upper 999 u = (999, .rootFound (u s.poi)) := by
    have hnb : ¬ Side.beyond .upper (u s.poi) (s.values s.poi) := by
      show ¬ u s.poi < s.values s.poi
      rw [huv]; linarith
    unfold Search.evaluate
    simp only [hnb, if_false, hzu, not_false_eq_true, true_and, sub_self, abs_zero, hr, if_true]
    rw [if_neg (by linarith)]
    norm_num
  refine ⟨e, ?_, hepos, ?_⟩
  · unfold Search.errors Search.run
    rw [hel]
    simp only
    rw [heu]
    simp only
    rw [hlv, huv]
    congr 1
    ext <;> ring
  · apply parabola_error h
    simp only [e]
    rw [mul_pow, mul_pow, Real.sq_sqrt (by positivity)]
    field_simp

example : ∃ (s : Search Unit) (H : Matrix Unit Unit ℝ), Definite H ∧ (∀ x, s.loss x = some (parabola 3 s.values H x)) ∧
    s.fmin = 3 ∧ 0 < s.errordef ∧ 0 < s.sigma ∧ 0 < s.rtol ∧ 0 ≤ s.minTol := by
  refine ⟨⟨fun x => some (parabola 3 (fun _ => 1) (Matrix.of fun _ _ => 4) x), fun _ _ => 0, 3, 1 / 2, 2, 1, 0, (), fun _ => 1⟩,
    Matrix.of fun _ _ => 4, ⟨rfl, fun v hv => ?_⟩, fun _ => rfl, rfl, ?_⟩
  · have h0 : v () ≠ 0 := fun h => hv (by funext u; cases u; exact h)
    have : 0 < v () ^ 2 := by positivity
    simp [dotProduct, Matrix.mulVec]
    nlinarith
  · norm_num

/-- A loss of two parameters that is not a parabola: its minimum is 0 at (0, 0), its second derivatives there are those of
`(x² + y²) / 2`. -/
noncomputable def bent (x : Fin 2 → ℝ) : ℝ := x 0 ^ 2 / (1 + x 0 ^ 2 / 3) / 2 + (x 1 + x 0 ^ 2 / 2) ^ 2 / 2

/-- The search for the error of the first parameter of `bent`. -/
noncomputable def bentSearch : Search (Fin 2) :=
  ⟨fun x => some (bent x), fun _ _ => 0, 0, 1 / 2, 1, 3 / 1000, 1 / 1000, 0, fun _ => 0⟩

/-- C130 fails: the loss only has to be at the level, the other parameters need not be adjusted.  For `bent` the upper error
is 1, found at the first evaluation, although the profile of the loss there is 3/8 only; the level of 1/2 is at √(3/2). -/
theorem profile_not_minimised_violated (rest : List (Fin 2 → ℝ)) (lf uf : Fin 2 → ℝ) :
    bentSearch.Minimum ∧ bentSearch.Fine ∧
    (∀ j, bentSearch.start 1 (fun _ => none) (fun _ => none) .lower j = some ((![-1, 0] : Fin 2 → ℝ) j)) ∧
    (∀ j, bentSearch.start 1 (fun _ => none) (fun _ => none) .upper j = some ((![1, 0] : Fin 2 → ℝ) j)) ∧
    bentSearch.errors (![-1, 0] :: rest) (![1, 0] :: rest) lf uf = .ok (-1, 1) ∧
    IsProfile bent 0 1 (3 / 8) ∧ IsProfile bent 0 (Real.sqrt (3 / 2)) (1 / 2) := by
  have hprof : ∀ v : ℝ, IsProfile bent 0 v (v ^ 2 / (1 + v ^ 2 / 3) / 2) := by
    intro v
    refine ⟨⟨![v, -(v ^ 2 / 2)], rfl, ?_⟩, ?_⟩
    · simp [bent]
    · intro x hx
      unfold bent
      rw [hx]
      have : 0 ≤ (x 1 + v ^ 2 / 2) ^ 2 / 2 := by positivity
      linarith
  have hnn : ∀ x, 0 ≤ bent x := by
    intro x
    unfold bent
    positivity
  have h1 : bent ![1, 0] = 1 / 2 := by simp [bent]; norm_num
  have h2 : bent ![-1, 0] = 1 / 2 := by simp [bent]; norm_num
  refine ⟨?_, ?_, ?_, ?_, ?_, ?_, ?_⟩
  · intro x v hv
    simp only [bentSearch, Option.some.injEq] at hv
    rw [← hv]
    have := hnn x
    simp only [bentSearch]
    linarith
  · simp only [Search.Fine, bentSearch]
    norm_num
  · intro j
    rw [start_unlimited _ _ _ _ _ _ rfl rfl]
    fin_cases j <;> simp [bentSearch, Side.dir, Matrix.one_apply]
  · intro j
    rw [start_unlimited _ _ _ _ _ _ rfl rfl]
    fin_cases j <;> simp [bentSearch, Side.dir, Matrix.one_apply]
  · have hel : bentSearch.evaluate .lower 999 ![-1, 0] = (999, .rootFound (-1)) := by
      have hnb : ¬ Side.beyond .lower ((![-1, 0] : Fin 2 → ℝ) bentSearch.poi) (bentSearch.values bentSearch.poi) := by
        show ¬ (0 : ℝ) < -1
        norm_num
      have hz : bentSearch.zeroed ![-1, 0] = 1 / 2 := by
        show bent ![-1, 0] - 0 = 1 / 2
        rw [h2]; norm_num
      unfold Search.evaluate
      simp only [hnb, if_false, hz, not_false_eq_true, true_and]
      rw [if_neg (by simp only [bentSearch]; norm_num), if_pos (by simp only [bentSearch]; norm_num)]
      rw [if_pos (by norm_num)]
      rfl
    have heu : bentSearch.evaluate .upper 999 ![1, 0] = (999, .rootFound 1) := by
      have hnb : ¬ Side.beyond .upper ((![1, 0] : Fin 2 → ℝ) bentSearch.poi) (bentSearch.values bentSearch.poi) := by
        show ¬ (1 : ℝ) < 0
        norm_num
      have hz : bentSearch.zeroed ![1, 0] = 1 / 2 := by
        show bent ![1, 0] - 0 = 1 / 2
        rw [h1]; norm_num
      unfold Search.evaluate
      simp only [hnb, if_false, hz, not_false_eq_true, true_and]
      rw [if_neg (by simp only [bentSearch]; norm_num), if_pos (by simp only [bentSearch]; norm_num)]
      rw [if_pos (by norm_num)]
      rfl
    unfold Search.errors Search.run
    rw [hel]
    simp only
    rw [heu]
    simp only [bentSearch, sub_zero]
  · have := hprof 1
    norm_num at this
    exact this
  · have := hprof (Real.sqrt (3 / 2))
    rw [Real.sq_sqrt (by norm_num)] at this
    norm_num at this ⊢
    exact this

end Zfit.Unc
