import Verif.Diff.TapeModel
import Mathlib.Analysis.SpecialFunctions.Log.Deriv
import Mathlib.Analysis.SpecialFunctions.ExpDeriv
import Mathlib.Analysis.Calculus.Deriv.Inv
import Mathlib.Analysis.Calculus.Deriv.Mul

/-! Lemmas for the automatic derivatives (C264-C267). -/

namespace Zfit.Tape

open Filter Topology

/-! ### Specification -/

/-- The partial derivative of a function of the values of the parameters. -/
noncomputable def pd (i : ℕ) (f : (ℕ → ℝ) → ℝ) (x : ℕ → ℝ) : ℝ := deriv (fun t => f (Function.update x i t)) (x i)

/-- Every elementary function is evaluated where it is smooth: logarithms of positive and inverses of non-zero numbers. -/
def Expr.Smooth : Expr → (ℕ → ℝ) → Prop
  | .par _, _ => True
  | .const _, _ => True
  | .add a b, x => a.Smooth x ∧ b.Smooth x
  | .mul a b, x => a.Smooth x ∧ b.Smooth x
  | .fn f a, x => a.Smooth x ∧ (f = .log → 0 < a.eval x) ∧ (f = .inv → a.eval x ≠ 0)
  | .cached a, x => a.Smooth x

/-- The value of a cached PDF that depends on a watched parameter occurs. -/
def Expr.usesCache (ps : List ℕ) : Expr → Bool
  | .par _ => false
  | .const _ => false
  | .add a b => a.usesCache ps || b.usesCache ps
  | .mul a b => a.usesCache ps || b.usesCache ps
  | .fn _ a => a.usesCache ps
  | .cached a => ps.any a.reads

/-! ### Derivatives -/

/-- The elementary functions have the derivatives that are used. -/
theorem fn_deriv (f : Fn) (a : Expr) (x : ℕ → ℝ) (h1 : f = .log → 0 < a.eval x) (h2 : f = .inv → a.eval x ≠ 0) :
    HasDerivAt f.eval ((f.deriv a).eval x) (a.eval x) := by
  cases f with
  | exp => exact Real.hasDerivAt_exp _
  | log => exact Real.hasDerivAt_log (ne_of_gt (h1 rfl))
  | inv =>
    have := hasDerivAt_inv (h2 rfl)
    refine this.congr_deriv ?_
    simp only [Fn.deriv, Expr.eval, Fn.eval]
    rw [sq, mul_inv]
    ring

theorem fn_deriv_smooth (f : Fn) (a : Expr) (x : ℕ → ℝ) (h : (Expr.fn f a).Smooth x) : (f.deriv a).Smooth x := by
  obtain ⟨h0, h1, h2⟩ := h
  cases f with
  | exp => exact ⟨h0, by simp, by simp⟩
  | log => exact ⟨h0, by simp, fun _ => ne_of_gt (h1 rfl)⟩
  | inv => exact ⟨trivial, ⟨h0, by simp, h2⟩, ⟨h0, by simp, h2⟩⟩

/-- The value of what reaches the parameter `i`. -/
noncomputable def csum (i : ℕ) (l : List (ℕ × Expr)) (x : ℕ → ℝ) : ℝ := ((l.filter fun q => q.1 == i).map fun q => q.2.eval x).sum

theorem csum_append (i : ℕ) (l r : List (ℕ × Expr)) (x : ℕ → ℝ) : csum i (l ++ r) x = csum i l x + csum i r x := by
  simp [csum, List.filter_append]

theorem eval_foldr (l : List Expr) (x : ℕ → ℝ) : (l.foldr Expr.add (.const 0)).eval x = (l.map (·.eval x)).sum := by
  induction l with
  | nil => rfl
  | cons a l ih => simp [Expr.eval, ih]

theorem gather_some (l : List (ℕ × Expr)) (i : ℕ) (g : Expr) (h : gather l i = some g) (x : ℕ → ℝ) : g.eval x = csum i l x := by
  unfold gather at h
  split at h
  · cases h
  · cases h
    rw [eval_foldr, List.map_map]
    rfl

theorem gather_none (l : List (ℕ × Expr)) (i : ℕ) (h : gather l i = none) (x : ℕ → ℝ) : csum i l x = 0 := by
  unfold gather at h
  split at h
  · rename_i h'
    simp [csum, h']
  · cases h

/-- Every expression has a derivative with respect to every watched parameter where it is smooth, and what reaches the parameter
is `dy` times this derivative. -/
theorem pull_spec (ps : List ℕ) (i : ℕ) (hi : i ∈ ps) (e : Expr) (x : ℕ → ℝ) (hs : e.Smooth x) :
    ∃ d, HasDerivAt (fun t => e.eval (Function.update x i t)) d (x i) ∧
      ∀ dy l, pull ps e dy = .ok l → csum i l x = dy.eval x * d := by
  induction e with
  | par j =>
    by_cases hj : j = i
    · subst hj
      refine ⟨1, ?_, ?_⟩
      · have h1 : (fun t => (Expr.par j).eval (Function.update x j t)) = id := by
          funext t
          simp [Expr.eval]
        rw [h1]
        exact hasDerivAt_id (x j)
      · intro dy l h
        simp only [pull, hi, if_true, Except.ok.injEq] at h
        subst h
        simp [csum]
    · refine ⟨0, ?_, ?_⟩
      · simpa [Expr.eval, Function.update_of_ne hj] using hasDerivAt_const (x i) (x j)
      · intro dy l h
        simp only [pull, Except.ok.injEq] at h
        subst h
        split <;> simp [csum, hj]
  | const c =>
    refine ⟨0, hasDerivAt_const _ _, ?_⟩
    intro dy l h
    simp only [pull, Except.ok.injEq] at h
    subst h
    simp [csum]
  | add a b iha ihb =>
    obtain ⟨da, ha, hpa⟩ := iha hs.1
    obtain ⟨db, hb, hpb⟩ := ihb hs.2
    refine ⟨da + db, ha.fun_add hb, ?_⟩
    intro dy l h
    rw [pull] at h
    split at h
    · cases h
    · rename_i la hla
      split at h
      · cases h
      · rename_i lb hlb
        simp only [Except.ok.injEq] at h
        subst h
        rw [csum_append, hpa dy la hla, hpb dy lb hlb]
        ring
  | mul a b iha ihb =>
    obtain ⟨da, ha, hpa⟩ := iha hs.1
    obtain ⟨db, hb, hpb⟩ := ihb hs.2
    refine ⟨da * b.eval x + a.eval x * db, ?_, ?_⟩
    · have := ha.fun_mul hb
      rw [Function.update_eq_self] at this
      exact this
    · intro dy l h
      rw [pull] at h
      split at h
      · cases h
      · rename_i la hla
        split at h
        · cases h
        · rename_i lb hlb
          simp only [Except.ok.injEq] at h
          subst h
          rw [csum_append, hpa _ la hla, hpb _ lb hlb]
          simp only [Expr.eval]
          ring
  | fn f a iha =>
    obtain ⟨da, ha, hpa⟩ := iha hs.1
    refine ⟨(f.deriv a).eval x * da, ?_, ?_⟩
    · have h1 := fn_deriv f a x hs.2.1 hs.2.2
      have h2 : HasDerivAt f.eval ((f.deriv a).eval x) (a.eval (Function.update x i (x i))) := by
        rw [Function.update_eq_self]
        exact h1
      exact h2.comp (x i) ha
    · intro dy l h
      rw [pull] at h
      rw [hpa _ l h]
      simp only [Expr.eval]
      ring
  | cached a iha =>
    obtain ⟨da, ha, hpa⟩ := iha hs
    by_cases hr : ps.any a.reads
    · refine ⟨da, ha, ?_⟩
      intro dy l h
      simp only [pull, hr, if_true] at h
      cases h
    · refine ⟨0, ?_, ?_⟩
      · have hno : a.reads i = false := by
          rw [List.any_eq_true] at hr
          push Not at hr
          simpa using hr i hi
        have : ∀ (b : Expr), b.reads i = false → ∀ t, b.eval (Function.update x i t) = b.eval x := by
          intro b
          induction b with
          | par j => intro h t; simp only [Expr.reads, beq_eq_false_iff_ne] at h; simp [Expr.eval, Function.update_of_ne h]
          | const c => intro _ _; rfl
          | add a b iha ihb =>
            intro h t
            simp only [Expr.reads, Bool.or_eq_false_iff] at h
            simp only [Expr.eval, iha h.1, ihb h.2]
          | mul a b iha ihb =>
            intro h t
            simp only [Expr.reads, Bool.or_eq_false_iff] at h
            simp only [Expr.eval, iha h.1, ihb h.2]
          | fn f a iha => intro h t; simp only [Expr.eval, iha h]
          | cached a iha => intro h t; simp only [Expr.eval, iha h]
        simp only [Expr.eval, this a hno]
        exact hasDerivAt_const _ _
      · intro dy l h
        simp only [pull, hr] at h
        simp only [Bool.false_eq_true, if_false, Except.ok.injEq] at h
        subst h
        simp [csum]

/-- What reaches the parameters is smooth again. -/
theorem pull_smooth (ps : List ℕ) (e : Expr) (x : ℕ → ℝ) (hs : e.Smooth x) :
    ∀ dy l, dy.Smooth x → pull ps e dy = .ok l → ∀ q ∈ l, q.2.Smooth x := by
  induction e with
  | par j =>
    intro dy l hd h
    simp only [pull, Except.ok.injEq] at h
    subst h
    split <;> simp [hd]
  | const c =>
    intro dy l hd h
    simp only [pull, Except.ok.injEq] at h
    subst h
    simp
  | add a b iha ihb =>
    intro dy l hd h
    rw [pull] at h
    split at h
    · cases h
    · rename_i la hla
      split at h
      · cases h
      · rename_i lb hlb
        simp only [Except.ok.injEq] at h
        subst h
        intro q hq
        rcases List.mem_append.1 hq with hq | hq
        · exact iha hs.1 dy la hd hla q hq
        · exact ihb hs.2 dy lb hd hlb q hq
  | mul a b iha ihb =>
    intro dy l hd h
    rw [pull] at h
    split at h
    · cases h
    · rename_i la hla
      split at h
      · cases h
      · rename_i lb hlb
        simp only [Except.ok.injEq] at h
        subst h
        intro q hq
        rcases List.mem_append.1 hq with hq | hq
        · exact iha hs.1 (.mul dy b) la ⟨hd, hs.2⟩ hla q hq
        · exact ihb hs.2 (.mul dy a) lb ⟨hd, hs.1⟩ hlb q hq
  | fn f a iha =>
    intro dy l hd h
    rw [pull] at h
    exact iha hs.1 (.mul dy (f.deriv a)) l ⟨hd, fn_deriv_smooth f a x hs⟩ h
  | cached a iha =>
    intro dy l hd h
    rw [pull] at h
    split at h
    · cases h
    · simp only [Except.ok.injEq] at h
      subst h
      simp

theorem gather_smooth (l : List (ℕ × Expr)) (i : ℕ) (g : Expr) (h : gather l i = some g) (x : ℕ → ℝ) (hl : ∀ q ∈ l, q.2.Smooth x) :
    g.Smooth x := by
  unfold gather at h
  split at h
  · cases h
  · cases h
    have : ∀ m : List Expr, (∀ a ∈ m, a.Smooth x) → (m.foldr Expr.add (.const 0)).Smooth x := by
      intro m hm
      induction m with
      | nil => trivial
      | cons a m ih => exact ⟨hm a (by simp), ih fun b hb => hm b (by simp [hb])⟩
    refine this _ ?_
    intro a ha
    obtain ⟨q, hq, rfl⟩ := List.mem_map.1 ha
    exact hl q (List.mem_of_mem_filter hq)

/-! ### When something reaches a parameter -/

theorem pull_ok (ps : List ℕ) (e : Expr) : ∀ dy, (∃ l, pull ps e dy = .ok l) ↔ e.usesCache ps = false := by
  induction e with
  | par j => intro dy; simp [pull, Expr.usesCache]
  | const c => intro dy; simp [pull, Expr.usesCache]
  | add a b iha ihb =>
    intro dy
    simp only [Expr.usesCache, Bool.or_eq_false_iff, ← iha dy, ← ihb dy, pull]
    constructor
    · rintro ⟨l, h⟩
      split at h
      · cases h
      · rename_i la hla
        split at h
        · cases h
        · rename_i lb hlb
          exact ⟨⟨la, hla⟩, ⟨lb, hlb⟩⟩
    · rintro ⟨⟨la, hla⟩, ⟨lb, hlb⟩⟩
      rw [hla, hlb]
      exact ⟨_, rfl⟩
  | mul a b iha ihb =>
    intro dy
    simp only [Expr.usesCache, Bool.or_eq_false_iff, ← iha (.mul dy b), ← ihb (.mul dy a), pull]
    constructor
    · rintro ⟨l, h⟩
      split at h
      · cases h
      · rename_i la hla
        split at h
        · cases h
        · rename_i lb hlb
          exact ⟨⟨la, hla⟩, ⟨lb, hlb⟩⟩
    · rintro ⟨⟨la, hla⟩, ⟨lb, hlb⟩⟩
      rw [hla, hlb]
      exact ⟨_, rfl⟩
  | fn f a iha => intro dy; rw [pull]; exact iha _
  | cached a iha =>
    intro dy
    simp only [pull, Expr.usesCache]
    split <;> simp_all

/-- Something reaches a watched parameter exactly if it is read. -/
theorem pull_reads (ps : List ℕ) (i : ℕ) (hi : i ∈ ps) (e : Expr) : ∀ dy l, pull ps e dy = .ok l →
    ((∃ q ∈ l, q.1 = i) ↔ e.reads i = true) := by
  induction e with
  | par j =>
    intro dy l h
    simp only [pull, Except.ok.injEq] at h
    subst h
    by_cases hj : j = i
    · subst hj; simp [hi, Expr.reads]
    · split <;> simp [Expr.reads, hj]
  | const c =>
    intro dy l h
    simp only [pull, Except.ok.injEq] at h
    subst h
    simp [Expr.reads]
  | add a b iha ihb =>
    intro dy l h
    rw [pull] at h
    split at h
    · cases h
    · rename_i la hla
      split at h
      · cases h
      · rename_i lb hlb
        simp only [Except.ok.injEq] at h
        subst h
        rw [Expr.reads, Bool.or_eq_true, ← iha _ _ hla, ← ihb _ _ hlb]
        simp only [List.mem_append, or_and_right, exists_or]
  | mul a b iha ihb =>
    intro dy l h
    rw [pull] at h
    split at h
    · cases h
    · rename_i la hla
      split at h
      · cases h
      · rename_i lb hlb
        simp only [Except.ok.injEq] at h
        subst h
        rw [Expr.reads, Bool.or_eq_true, ← iha _ _ hla, ← ihb _ _ hlb]
        simp only [List.mem_append, or_and_right, exists_or]
  | fn f a iha =>
    intro dy l h
    rw [pull] at h
    exact iha _ l h
  | cached a iha =>
    intro dy l h
    rw [pull] at h
    split at h
    · cases h
    · rename_i hr
      simp only [Except.ok.injEq] at h
      subst h
      rw [List.any_eq_true] at hr
      push Not at hr
      have := hr i hi
      simp only [List.not_mem_nil, false_and, exists_false, Expr.reads, false_iff]
      exact this

theorem gather_isSome (l : List (ℕ × Expr)) (i : ℕ) : (∃ g, gather l i = some g) ↔ ∃ q ∈ l, q.1 = i := by
  unfold gather
  split
  · rename_i h
    rw [List.filter_eq_nil_iff] at h
    simp only [beq_iff_eq] at h
    simp only [reduceCtorEq, exists_false, false_iff, not_exists, not_and]
    exact h
  · rename_i h
    simp only [Option.some.injEq, exists_eq', true_iff]
    by_contra hc
    push Not at hc
    exact h (List.filter_eq_nil_iff.2 fun q hq => by simpa using hc q hq)

theorem allSome_ok {α : Type} (l : List (Option α)) (r : List α) : allSome l = .ok r ↔ l = r.map some := by
  induction l generalizing r with
  | nil =>
    simp only [allSome, Except.ok.injEq]
    cases r <;> simp
  | cons a l ih =>
    cases a with
    | none => cases r <;> simp [allSome]
    | some a =>
      rw [allSome]
      cases h : allSome l with
      | error e =>
        simp only [Except.map, reduceCtorEq, false_iff]
        intro hr
        cases r with
        | nil => cases hr
        | cons b r =>
          simp only [List.map_cons, List.cons.injEq, Option.some.injEq] at hr
          rw [(ih r).2 hr.2] at h
          cases h
      | ok m =>
        simp only [Except.map, Except.ok.injEq]
        rw [ih m] at h
        subst h
        constructor
        · rintro rfl; rfl
        · intro hr
          cases r with
          | nil => cases hr
          | cons b r =>
            simp only [List.map_cons, List.cons.injEq, Option.some.injEq] at hr
            have : m = r := List.map_injective_iff.2 (fun _ _ h => Option.some.inj h) hr.2
            rw [hr.1, this]

end Zfit.Tape
