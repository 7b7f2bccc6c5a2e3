import Verif.Diff.TapeLemmas
import Mathlib.Analysis.Calculus.FDeriv.Symmetric
import Mathlib.Analysis.SpecialFunctions.Log.Deriv
import Mathlib.Analysis.SpecialFunctions.ExpDeriv
import Mathlib.Analysis.Calculus.ContDiff.Operations
import Mathlib.Analysis.Calculus.ContDiff.RCLike

/-!
# Automatic derivatives: C264-C267

Specification: `pd i f x`, the partial derivative of `f` with respect to the parameter `i` at the values `x`; `Expr.Smooth`, the
function is evaluated where logarithms and inverses are smooth; `Expr.usesCache`, a cached PDF that depends on one of the
parameters takes part (all in TapeLemmas).
-/

namespace Zfit.Tape

open Filter Topology

/-! ### Gradients -/

theorem gradientExprs_ok (ps : List ℕ) (e : Expr) (gs : List Expr) (h : gradientExprs ps e = .ok gs) :
    ∃ l, pull ps e (.const 1) = .ok l ∧ ps.map (gather l) = gs.map some := by
  unfold gradientExprs tapeGradient at h
  cases hp : pull ps e (.const 1) with
  | error err => rw [hp] at h; simp [Except.map] at h
  | ok l =>
    rw [hp] at h
    simp only [Except.map] at h
    exact ⟨l, rfl, (allSome_ok _ _).1 h⟩

/-- One of the recorded gradients is the partial derivative wherever the function is smooth. -/
theorem gather_pd (ps : List ℕ) (e : Expr) (l : List (ℕ × Expr)) (hl : pull ps e (.const 1) = .ok l) (i : ℕ) (hi : i ∈ ps) (g : Expr)
    (hg : gather l i = some g) (x : ℕ → ℝ) (hs : e.Smooth x) :
    HasDerivAt (fun t => e.eval (Function.update x i t)) (g.eval x) (x i) := by
  obtain ⟨d, hd, hp⟩ := pull_spec ps i hi e x hs
  have h1 := hp _ _ hl
  rw [← gather_some l i g hg x] at h1
  simp only [Expr.eval, one_mul] at h1
  rw [h1]
  exact hd

theorem map_eq_of_map_some {α β : Type} (ps : List α) (f : α → Option β) (gs : List β) (h : ps.map f = gs.map some) {γ : Type} (k : β → γ)
    (r : α → γ) (hr : ∀ p ∈ ps, ∀ g, f p = some g → k g = r p) : gs.map k = ps.map r := by
  induction ps generalizing gs with
  | nil => cases gs <;> simp_all
  | cons p ps ih =>
    cases gs with
    | nil => simp at h
    | cons g gs =>
      simp only [List.map_cons, List.cons.injEq] at h
      simp only [List.map_cons, List.cons.injEq]
      exact ⟨hr p (by simp) g h.1, ih gs h.2 fun q hq => hr q (by simp [hq])⟩

/-- **C264.** The automatic gradient is the derivative.  Whenever a value and a gradient are returned, the value is that of the
function at the values of the parameters, and the entries of the gradient are the partial derivatives there, in the order of the
parameters; the values lie within the limits, and are the ones that were set if these do. -/
theorem gradient_is_partial_derivatives (e : Expr) (ps : List ℕ) (s : ℕ → Par) (v : ℝ) (g : List ℝ) (h : valueGradient e ps s = .ok (v, g))
    (hs : e.Smooth (values s)) :
    v = e.eval (values s) ∧ g = ps.map (fun i => pd i e.eval (values s)) ∧
      (∀ i ∈ ps, HasDerivAt (fun t => e.eval (Function.update (values s) i t)) (pd i e.eval (values s)) (values s i)) ∧
      gradient e ps s = .ok g ∧
      ∀ i, (∀ a b, (s i).lower = some a → (s i).upper = some b → a ≤ b) →
        (∀ a, (s i).lower = some a → a ≤ values s i) ∧ (∀ b, (s i).upper = some b → values s i ≤ b) ∧
        ((∀ a, (s i).lower = some a → a ≤ (s i).raw) → (∀ b, (s i).upper = some b → (s i).raw ≤ b) → values s i = (s i).raw) := by
  have h0 := h
  unfold valueGradient at h
  cases hg : gradientExprs ps e with
  | error err => rw [hg] at h; cases h
  | ok gs =>
    rw [hg] at h
    simp only [Except.map, Except.ok.injEq, Prod.mk.injEq] at h
    obtain ⟨rfl, rfl⟩ := h
    obtain ⟨l, hl, hm⟩ := gradientExprs_ok ps e gs hg
    refine ⟨rfl, ?_, ?_, ?_, ?_⟩
    · refine map_eq_of_map_some ps (gather l) gs hm _ _ ?_
      intro i hi g hgi
      exact (gather_pd ps e l hl i hi g hgi _ hs).deriv.symm
    · intro i hi
      obtain ⟨d, hd, -⟩ := pull_spec ps i hi e _ hs
      have : pd i e.eval (values s) = d := hd.deriv
      rw [this]
      exact hd
    · unfold gradient
      rw [h0]
      rfl
    · intro i hlim
      unfold values Par.value
      rcases hlo : (s i).lower with _ | a <;> rcases hup : (s i).upper with _ | b
      · simp
      · refine ⟨by simp, by simp, ?_⟩
        intro _ h2
        exact min_eq_left (h2 b rfl)
      · refine ⟨by simp, by simp, ?_⟩
        intro h1 _
        exact max_eq_left (h1 a rfl)
      · have hab := hlim a b hlo hup
        refine ⟨by simp, by simp [hab], ?_⟩
        intro h1 h2
        have h1 := h1 a rfl
        have h2 := h2 b rfl
        dsimp only
        rw [min_eq_left h2, max_eq_left h1]

/-- `exp(p0) * p1 + log(p1)`, with the parameter 0 beyond its upper limit. -/
noncomputable def sampleE : Expr := .add (.mul (.fn .exp (.par 0)) (.par 1)) (.fn .log (.par 1))

noncomputable def sampleS : ℕ → Par := fun i => if i = 0 then ⟨some (-1), some 0, 5⟩ else ⟨none, none, 2⟩

example : sampleE.Smooth (values sampleS) ∧ ∃ v g, valueGradient sampleE [0, 1] sampleS = .ok (v, g) := by
  constructor
  · refine ⟨⟨⟨trivial, by simp, by simp⟩, trivial⟩, trivial, fun _ => ?_, by simp⟩
    norm_num [Expr.eval, values, sampleS, Par.value]
  · simp [valueGradient, gradientExprs, tapeGradient, sampleE, pull, Except.map, gather, allSome, Fn.deriv]

/-! ### When there is a gradient -/

/-- Whether there is a gradient. -/
theorem gradient_returned (e : Expr) (ps : List ℕ) :
    (∃ gs, gradientExprs ps e = .ok gs) ↔ (∀ i ∈ ps, e.reads i = true) ∧ e.usesCache ps = false := by
  constructor
  · rintro ⟨gs, h⟩
    obtain ⟨l, hl, hm⟩ := gradientExprs_ok ps e gs h
    refine ⟨?_, (pull_ok ps e _).1 ⟨l, hl⟩⟩
    intro i hi
    rw [← pull_reads ps i hi e _ l hl, ← gather_isSome]
    have : gather l i ∈ gs.map some := by
      rw [← hm]
      exact List.mem_map_of_mem hi
    obtain ⟨g, -, hg⟩ := List.mem_map.1 this
    exact ⟨g, hg.symm⟩
  · rintro ⟨h1, h2⟩
    obtain ⟨l, hl⟩ := (pull_ok ps e (.const 1)).2 h2
    have h3 : ∀ i ∈ ps, ∃ g, gather l i = some g := by
      intro i hi
      rw [gather_isSome, pull_reads ps i hi e _ l hl]
      exact h1 i hi
    haveI : Inhabited Expr := ⟨.const 0⟩
    choose! k hk using h3
    refine ⟨ps.map k, ?_⟩
    unfold gradientExprs tapeGradient
    rw [hl]
    simp only [Except.map]
    rw [allSome_ok, List.map_map]
    exact List.map_congr_left hk

/-- **C265.** A function that is smooth in the parameters, and computed without a cached PDF that depends on them, should have a
gradient, with zeros for the parameters it does not depend on.  Proved: there is a gradient exactly if the function reads every
one of the parameters and no cached PDF depends on any of them; a cached PDF that does makes it raise
`AnalyticGradientNotAvailable`, it never gives a wrong gradient.

Missing from the full claim: the gradient for a parameter that the function does not read, which the code does not return
(`gradient_exists_violated`). -/
theorem gradient_exists_partial (e : Expr) (ps : List ℕ) (s : ℕ → Par) :
    ((∃ v g, valueGradient e ps s = .ok (v, g)) ↔ (∀ i ∈ ps, e.reads i = true) ∧ e.usesCache ps = false) ∧
    ((∃ i ∈ ps, e.reads i = false) ∧ e.usesCache ps = false → valueGradient e ps s = .error .noneInList) ∧
    (e.usesCache ps = true → valueGradient e ps s = .error .notAvailable) := by
  refine ⟨?_, ?_, ?_⟩
  · rw [← gradient_returned]
    unfold valueGradient
    constructor
    · rintro ⟨v, g, h⟩
      cases hg : gradientExprs ps e with
      | error err => rw [hg] at h; cases h
      | ok gs => exact ⟨gs, rfl⟩
    · rintro ⟨gs, hg⟩
      rw [hg]
      exact ⟨_, _, rfl⟩
  · rintro ⟨⟨i, hi, hr⟩, hc⟩
    obtain ⟨l, hl⟩ := (pull_ok ps e (.const 1)).2 hc
    have hne : ¬ ∃ gs, gradientExprs ps e = .ok gs := by
      rw [gradient_returned]
      rintro ⟨h1, -⟩
      rw [h1 i hi] at hr
      cases hr
    have herr : ∀ (m : List (Option Expr)), allSome m = .error .noneInList ∨ ∃ r, allSome m = .ok r := by
      intro m
      induction m with
      | nil => exact Or.inr ⟨[], rfl⟩
      | cons a m ih =>
        cases a with
        | none => exact Or.inl rfl
        | some a =>
          rw [allSome]
          rcases ih with ih | ⟨r, ih⟩ <;> rw [ih]
          · exact Or.inl rfl
          · exact Or.inr ⟨_, rfl⟩
    unfold valueGradient
    unfold gradientExprs tapeGradient at hne ⊢
    rw [hl] at hne ⊢
    simp only [Except.map] at hne ⊢
    rcases herr (ps.map (gather l)) with h | h
    · rw [h]
    · exact absurd h hne
  · intro hc
    have herr : ∀ (a : Expr) (dy : Expr) (err : Fail), pull ps a dy = .error err → err = .notAvailable := by
      intro a
      induction a with
      | par j => intro dy err h; simp [pull] at h
      | const c => intro dy err h; simp [pull] at h
      | add a b iha ihb =>
        intro dy err h
        rw [pull] at h
        split at h
        · rename_i h'; cases h; exact iha _ _ h'
        · split at h
          · rename_i h'; cases h; exact ihb _ _ h'
          · cases h
      | mul a b iha ihb =>
        intro dy err h
        rw [pull] at h
        split at h
        · rename_i h'; cases h; exact iha _ _ h'
        · split at h
          · rename_i h'; cases h; exact ihb _ _ h'
          · cases h
      | fn f a iha => intro dy err h; rw [pull] at h; exact iha _ _ h
      | cached a iha =>
        intro dy err h
        rw [pull] at h
        split at h
        · cases h; rfl
        · cases h
    unfold valueGradient gradientExprs tapeGradient
    cases hp : pull ps e (.const 1) with
    | ok l =>
      have := (pull_ok ps e (.const 1)).1 ⟨l, hp⟩
      rw [hc] at this
      cases this
    | error err =>
      rw [herr _ _ _ hp]
      rfl

/-- **C265**, where it fails: `p0 * p0` has no gradient with respect to `p0` and `p1`, although both partial derivatives exist. -/
theorem gradient_exists_violated :
    ∃ (e : Expr) (ps : List ℕ) (s : ℕ → Par), e.Smooth (values s) ∧ e.usesCache ps = false ∧
      (∀ i ∈ ps, ∃ d, HasDerivAt (fun t => e.eval (Function.update (values s) i t)) d (values s i)) ∧
      pd 1 e.eval (values s) = 0 ∧ valueGradient e ps s = .error .noneInList := by
  refine ⟨.mul (.par 0) (.par 0), [0, 1], fun _ => ⟨none, none, 3⟩, ⟨trivial, trivial⟩, rfl, ?_, ?_, ?_⟩
  · intro i hi
    obtain ⟨d, hd, -⟩ := pull_spec [0, 1] i hi (.mul (.par 0) (.par 0)) (values fun _ => ⟨none, none, 3⟩) ⟨trivial, trivial⟩
    exact ⟨d, hd⟩
  · simp [pd, Expr.eval]
  · refine (gradient_exists_partial _ _ _).2.1 ⟨⟨1, by simp, rfl⟩, rfl⟩

/-- The three cases of C265 occur. -/
example : (∀ i ∈ [0, 1], sampleE.reads i = true) ∧ sampleE.usesCache [0, 1] = false ∧
    (Expr.mul (.par 0) (.cached (.par 1))).usesCache [0, 1] = true ∧ (Expr.mul (.par 0) (.cached (.par 1))).usesCache [0] = false := by
  refine ⟨?_, rfl, rfl, rfl⟩
  decide

/-! ### Hessians -/

/-- A function that is smooth at `x` is so near `x`. -/
theorem smooth_eventually (e : Expr) (x : ℕ → ℝ) (j : ℕ) (hs : e.Smooth x) : ∀ᶠ t in 𝓝 (x j), e.Smooth (Function.update x j t) := by
  induction e with
  | par i => exact Eventually.of_forall fun _ => trivial
  | const c => exact Eventually.of_forall fun _ => trivial
  | add a b iha ihb => exact (iha hs.1).and (ihb hs.2)
  | mul a b iha ihb => exact (iha hs.1).and (ihb hs.2)
  | fn f a iha =>
    obtain ⟨d, hd, -⟩ := pull_spec [j] j (by simp) a x hs.1
    have hc := hd.continuousAt
    have hx : a.eval (Function.update x j (x j)) = a.eval x := by rw [Function.update_eq_self]
    refine (iha hs.1).and (Eventually.and ?_ ?_)
    · by_cases hf : f = .log
      · have : 0 < a.eval (Function.update x j (x j)) := by rw [hx]; exact hs.2.1 hf
        filter_upwards [hc.eventually (lt_mem_nhds this)] with t ht _
        exact ht
      · exact Eventually.of_forall fun _ h => absurd h hf
    · by_cases hf : f = .inv
      · have : a.eval (Function.update x j (x j)) ≠ 0 := by rw [hx]; exact hs.2.2 hf
        filter_upwards [hc.eventually_ne this] with t ht _
        exact ht
      · exact Eventually.of_forall fun _ h => absurd h hf
  | cached a iha => exact iha hs

/-- Near `x` a recorded gradient is the partial derivative of the function; its derivative is the second derivative. -/
theorem gather_pd_pd (ps : List ℕ) (e : Expr) (l : List (ℕ × Expr)) (hl : pull ps e (.const 1) = .ok l) (i : ℕ) (hi : i ∈ ps) (g : Expr)
    (hg : gather l i = some g) (j : ℕ) (x : ℕ → ℝ) (hs : e.Smooth x) : pd j g.eval x = pd j (pd i e.eval) x := by
  unfold pd
  refine EventuallyEq.deriv_eq ?_
  filter_upwards [smooth_eventually e x j hs] with t ht
  exact (gather_pd ps e l hl i hi g hg _ ht).deriv.symm

theorem grad_smooth (ps : List ℕ) (e : Expr) (l : List (ℕ × Expr)) (hl : pull ps e (.const 1) = .ok l) (i : ℕ) (g : Expr)
    (hg : gather l i = some g) (x : ℕ → ℝ) (hs : e.Smooth x) : g.Smooth x :=
  gather_smooth l i g hg x (pull_smooth ps e x hs (.const 1) l trivial hl)

/-- The derivative of an expression with respect to a watched parameter, zero if nothing reaches it. -/
theorem second_entry (ps : List ℕ) (g : Expr) (l : List (ℕ × Expr)) (hl : pull ps g (.const 1) = .ok l) (j : ℕ) (hj : j ∈ ps) (x : ℕ → ℝ)
    (hs : g.Smooth x) : ((gather l j).map (·.eval x)).getD 0 = pd j g.eval x := by
  obtain ⟨d, hd, hp⟩ := pull_spec ps j hj g x hs
  have h1 := hp _ _ hl
  simp only [Expr.eval, one_mul] at h1
  have h2 : pd j g.eval x = d := hd.deriv
  rw [h2, ← h1]
  cases hg : gather l j with
  | none => simp [gather_none l j hg x]
  | some k => simp [gather_some l j k hg x]

theorem mapM_ok {α β : Type} (f : α → Except Fail β) (l : List α) (r : List β) : l.mapM f = .ok r ↔ l.map f = r.map .ok := by
  induction l generalizing r with
  | nil => cases r <;> simp [pure, Except.pure]
  | cons a l ih =>
    rw [List.mapM_cons]
    cases ha : f a with
    | error e => cases r <;> simp [Bind.bind, Except.bind, ha]
    | ok b =>
      cases hm : l.mapM f with
      | error e =>
        cases r with
        | nil => simp [Bind.bind, Except.bind]
        | cons c r =>
          have : ¬ l.map f = r.map .ok := by
            rw [← ih, hm]
            simp
          simp [Bind.bind, Except.bind, ha, this]
      | ok m =>
        have h1 := (ih m).1 hm
        cases r with
        | nil => simp [Bind.bind, Except.bind, pure, Except.pure]
        | cons c r =>
          have h2 := ih r
          rw [hm] at h2
          simp only [Except.ok.injEq] at h2
          simp [Bind.bind, Except.bind, pure, Except.pure, ha, h2]

/-- The entries of the recorded gradient. -/
theorem grad_entry (ps : List ℕ) (l : List (ℕ × Expr)) (gs : List Expr) (hm : ps.map (gather l) = gs.map some) (k : ℕ) (g : Expr)
    (hk : gs[k]? = some g) : ∃ i, ps[k]? = some i ∧ i ∈ ps ∧ gather l i = some g := by
  have h1 : (ps.map (gather l))[k]? = some (some g) := by rw [hm, List.getElem?_map, hk]; rfl
  rw [List.getElem?_map, Option.map_eq_some_iff] at h1
  obtain ⟨i, hi, hg⟩ := h1
  exact ⟨i, hi, List.mem_of_getElem? hi, hg⟩

/-- The full matrix. -/
theorem fullHessian_spec (e : Expr) (ps : List ℕ) (gs : List Expr) (hg : gradientExprs ps e = .ok gs) (x : ℕ → ℝ) (hs : e.Smooth x)
    (H : List (List ℝ)) (h : fullHessian ps gs x = .ok H) : H = ps.map fun j => ps.map fun i => pd j (pd i e.eval) x := by
  obtain ⟨l, hl, hm⟩ := gradientExprs_ok ps e gs hg
  unfold fullHessian at h
  split at h
  · cases h
  · rename_i ls hls
    rw [mapM_ok] at hls
    rw [allSome_ok] at h
    have h1 := map_eq_of_map_some ps _ H h (γ := List ℝ) id (fun j => ps.map fun i => pd j (pd i e.eval) x) ?_
    · simpa using h1
    intro j hj row hrow
    unfold column at hrow
    split at hrow
    · cases hrow
    · simp only [Option.some.injEq] at hrow
      subst hrow
      simp only [id_eq, List.map_map]
      have hlen : ls.length = ps.length := by
        have a1 := congrArg List.length hls
        have a2 := congrArg List.length hm
        simp at a1 a2
        omega
      refine List.ext_getElem? fun k => ?_
      rw [List.getElem?_map, List.getElem?_map]
      by_cases hk : k < ls.length
      · have hgk : k < gs.length := by
          have a2 := congrArg List.length hm
          simp at a2
          omega
        obtain ⟨i, hi, himem, hgi⟩ := grad_entry ps l gs hm k gs[k] (List.getElem?_eq_getElem hgk)
        have hpk : pull ps gs[k] (.const 1) = .ok ls[k] := by
          have := congrArg (·[k]?) hls
          simp only [List.getElem?_map, List.getElem?_eq_getElem hgk, List.getElem?_eq_getElem hk, Option.map_some, Option.some.injEq] at this
          exact this
        rw [hi, List.getElem?_eq_getElem hk]
        simp only [Option.map_some, Function.comp, Option.some.injEq]
        rw [second_entry ps gs[k] ls[k] hpk j hj x (grad_smooth ps e l hl i _ hgi x hs)]
        exact gather_pd_pd ps e l hl i himem _ hgi j x hs
      · rw [List.getElem?_eq_none (by omega), List.getElem?_eq_none (by omega)]
        rfl

/-- The diagonal. -/
theorem diag_spec (e : Expr) (ps : List ℕ) (gs : List Expr) (hg : gradientExprs ps e = .ok gs) (x : ℕ → ℝ) (hs : e.Smooth x)
    (ds : List Expr) (h : diagExprs ps gs = .ok ds) : ds.map (·.eval x) = ps.map fun i => pd i (pd i e.eval) x := by
  obtain ⟨l, hl, hm⟩ := gradientExprs_ok ps e gs hg
  unfold diagExprs at h
  split at h
  · cases h
  · rename_i ls hls
    rw [mapM_ok] at hls
    rw [allSome_ok] at h
    have a1 := congrArg List.length hls
    have a2 := congrArg List.length hm
    have a3 := congrArg List.length h
    simp at a1 a2 a3
    refine List.ext_getElem? fun k => ?_
    rw [List.getElem?_map, List.getElem?_map]
    by_cases hk : k < ds.length
    · have hgk : k < gs.length := by omega
      have hlk : k < ls.length := by omega
      obtain ⟨i, hi, himem, hgi⟩ := grad_entry ps l gs hm k gs[k] (List.getElem?_eq_getElem hgk)
      have hz : (List.zip ps gs)[k]? = some (i, gs[k]) := by
        rw [List.getElem?_zip_eq_some]
        exact ⟨hi, List.getElem?_eq_getElem hgk⟩
      have hp1 : tapeGradient [i] gs[k] = .ok ls[k] := by
        have := congrArg (·[k]?) hls
        simp only [List.getElem?_map, hz, List.getElem?_eq_getElem hlk, Option.map_some, Option.some.injEq] at this
        exact this
      have hd1 : (ls[k][0]?).getD none = some ds[k] := by
        have := congrArg (·[k]?) h
        simp only [List.getElem?_map, List.getElem?_eq_getElem hlk, List.getElem?_eq_getElem hk, Option.map_some, Option.some.injEq] at this
        exact this
      unfold tapeGradient at hp1
      cases hq : pull [i] gs[k] (.const 1) with
      | error err => rw [hq] at hp1; cases hp1
      | ok m =>
        rw [hq] at hp1
        simp only [Except.map, List.map_cons, List.map_nil, Except.ok.injEq] at hp1
        rw [← hp1] at hd1
        simp only [List.getElem?_cons_zero, Option.getD_some] at hd1
        rw [hi, List.getElem?_eq_getElem hk]
        simp only [Option.map_some, Option.some.injEq]
        have := second_entry [i] gs[k] m hq i (by simp) x (grad_smooth ps e l hl i _ hgi x hs)
        rw [hd1] at this
        simp only [Option.map_some, Option.getD_some] at this
        rw [this]
        exact gather_pd_pd ps e l hl i himem _ hgi i x hs
    · rw [List.getElem?_eq_none (by omega), List.getElem?_eq_none (by omega)]
      rfl

/-! #### Symmetry -/

/-- As a function of two of the parameters. -/
noncomputable def two (e : Expr) (x : ℕ → ℝ) (i j : ℕ) (q : ℝ × ℝ) : ℝ := e.eval (Function.update (Function.update x i q.1) j q.2)

theorem two_contDiff (e : Expr) (x : ℕ → ℝ) (i j : ℕ) (hs : e.Smooth x) : ContDiffAt ℝ 2 (two e x i j) (x i, x j) := by
  have hx : Function.update (Function.update x i (x i)) j (x j) = x := by rw [Function.update_eq_self, Function.update_eq_self]
  induction e with
  | par k =>
    unfold two
    simp only [Expr.eval]
    by_cases hkj : k = j
    · subst hkj
      simp only [Function.update_self]
      exact contDiffAt_snd
    · simp only [Function.update_of_ne hkj]
      by_cases hki : k = i
      · subst hki
        simp only [Function.update_self]
        exact contDiffAt_fst
      · simp only [Function.update_of_ne hki]
        exact contDiffAt_const
  | const c => exact contDiffAt_const
  | add a b iha ihb => exact (iha hs.1).add (ihb hs.2)
  | mul a b iha ihb => exact (iha hs.1).mul (ihb hs.2)
  | fn f a iha =>
    have h0 := iha hs.1
    have hv : two a x i j (x i, x j) = a.eval x := by unfold two; rw [hx]
    cases f with
    | exp => exact h0.exp
    | log => exact h0.log (by rw [hv]; exact ne_of_gt (hs.2.1 rfl))
    | inv => exact h0.inv (by rw [hv]; exact hs.2.2 rfl)
  | cached a iha => exact iha hs

/-- The mixed derivative of a function of two variables, through the second Fréchet derivative. -/
theorem mixed (F : ℝ × ℝ → ℝ) (a b : ℝ) (hF : ContDiffAt ℝ 2 F (a, b)) :
    deriv (fun t => deriv (fun u => F (u, t)) a) b = fderiv ℝ (fderiv ℝ F) (a, b) (0, 1) (1, 0) ∧
    deriv (fun u => deriv (fun t => F (u, t)) b) a = fderiv ℝ (fderiv ℝ F) (a, b) (1, 0) (0, 1) := by
  have hev : ∀ᶠ q in 𝓝 (a, b), DifferentiableAt ℝ F q := by
    have := hF.eventually (by simp)
    filter_upwards [this] with q hq
    exact hq.differentiableAt (by simp)
  have hD : DifferentiableAt ℝ (fderiv ℝ F) (a, b) := (hF.fderiv_right (m := 1) (by norm_num)).differentiableAt (by simp)
  have e1 : ∀ (u t : ℝ), HasDerivAt (fun u : ℝ => (u, t)) ((1 : ℝ), (0 : ℝ)) u := fun u t => (hasDerivAt_id u).prodMk (hasDerivAt_const u t)
  have e2 : ∀ (u t : ℝ), HasDerivAt (fun t : ℝ => (u, t)) ((0 : ℝ), (1 : ℝ)) t := fun u t => (hasDerivAt_const t u).prodMk (hasDerivAt_id t)
  constructor
  · have h1 : (fun t => deriv (fun u => F (u, t)) a) =ᶠ[𝓝 b] fun t => fderiv ℝ F (a, t) (1, 0) := by
      have hc : Tendsto (fun t : ℝ => (a, t)) (𝓝 b) (𝓝 (a, b)) := (e2 a b).continuousAt
      filter_upwards [hc.eventually hev] with t ht
      exact (ht.hasFDerivAt.comp_hasDerivAt a (e1 a t)).deriv
    rw [h1.deriv_eq]
    have h2 := hD.hasFDerivAt.comp_hasDerivAt b (e2 a b)
    have h3 := (h2.clm_apply (hasDerivAt_const b ((1 : ℝ), (0 : ℝ)))).deriv
    simpa using h3
  · have h1 : (fun u => deriv (fun t => F (u, t)) b) =ᶠ[𝓝 a] fun u => fderiv ℝ F (u, b) (0, 1) := by
      have hc : Tendsto (fun u : ℝ => (u, b)) (𝓝 a) (𝓝 (a, b)) := (e1 a b).continuousAt
      filter_upwards [hc.eventually hev] with u hu
      exact (hu.hasFDerivAt.comp_hasDerivAt b (e2 u b)).deriv
    rw [h1.deriv_eq]
    have h2 := hD.hasFDerivAt.comp_hasDerivAt a (e1 a b)
    have h3 := (h2.clm_apply (hasDerivAt_const a ((0 : ℝ), (1 : ℝ)))).deriv
    simpa using h3

/-- The mixed partial derivatives are equal. -/
theorem pd_comm (e : Expr) (x : ℕ → ℝ) (i j : ℕ) (hs : e.Smooth x) : pd i (pd j e.eval) x = pd j (pd i e.eval) x := by
  by_cases hij : i = j
  · rw [hij]
  · have hF := two_contDiff e x i j hs
    obtain ⟨h1, h2⟩ := mixed _ _ _ hF
    have hsym := hF.isSymmSndFDerivAt (by simp)
    have g1 : pd j (pd i e.eval) x = deriv (fun t => deriv (fun u => two e x i j (u, t)) (x i)) (x j) := by
      unfold pd two
      congr 1
      funext t
      rw [Function.update_of_ne hij]
      congr 1
      funext u
      rw [Function.update_comm hij]
    have g2 : pd i (pd j e.eval) x = deriv (fun u => deriv (fun t => two e x i j (u, t)) (x j)) (x i) := by
      unfold pd two
      congr 1
      funext u
      rw [Function.update_of_ne (Ne.symm hij)]
    rw [g1, g2, h1, h2]
    exact hsym _ _

/-- **C266.** The automatic Hessian is the matrix of the second derivatives.  Whenever it is returned, value and gradient are
those of C264, the entry in row `j` and column `i` of the matrix is the second partial derivative with respect to the parameters
`j` and `i`, the matrix is symmetric, and with `hessian="diag"` the entries are its diagonal. -/
theorem hessian_is_second_derivatives (e : Expr) (ps : List ℕ) (diag : Bool) (s : ℕ → Par) (v : ℝ) (g : List ℝ) (H : Hess)
    (h : valueGradientHessian (some e) (some ps) diag s = .ok (v, g, H)) (hs : e.Smooth (values s)) :
    v = e.eval (values s) ∧ g = ps.map (fun i => pd i e.eval (values s)) ∧
      H = (if diag then .diag (ps.map fun i => pd i (pd i e.eval) (values s))
        else .full (ps.map fun j => ps.map fun i => pd j (pd i e.eval) (values s))) ∧
      (∀ i j, pd i (pd j e.eval) (values s) = pd j (pd i e.eval) (values s)) ∧ hessian e ps diag s = .ok H := by
  have h0 := h
  unfold valueGradientHessian at h
  dsimp only at h
  cases hg : gradientExprs ps e with
  | error err => rw [hg] at h; cases h
  | ok gs =>
    rw [hg] at h
    dsimp only at h
    have hvg : valueGradient e ps s = .ok (e.eval (values s), gs.map (·.eval (values s))) := by
      unfold valueGradient
      rw [hg]
      rfl
    have hgrad := (gradient_is_partial_derivatives e ps s _ _ hvg hs).2.1
    have hh : hessian e ps diag s = .ok H := by unfold hessian; rw [h0]; rfl
    have hc := fun i j => pd_comm e (values s) i j hs
    cases diag with
    | true =>
      simp only [if_true] at h ⊢
      cases hd : diagExprs ps gs with
      | error err => rw [hd] at h; cases h
      | ok ds =>
        rw [hd] at h
        simp only [Except.map, Except.ok.injEq, Prod.mk.injEq] at h
        obtain ⟨rfl, rfl, rfl⟩ := h
        refine ⟨rfl, hgrad, ?_, hc, hh⟩
        rw [diag_spec e ps gs hg _ hs ds hd]
    | false =>
      simp only [Bool.false_eq_true, if_false] at h ⊢
      cases hd : fullHessian ps gs (values s) with
      | error err => rw [hd] at h; cases h
      | ok M =>
        rw [hd] at h
        simp only [Except.map, Except.ok.injEq, Prod.mk.injEq] at h
        obtain ⟨rfl, rfl, rfl⟩ := h
        refine ⟨rfl, hgrad, ?_, hc, hh⟩
        rw [fullHessian_spec e ps gs hg _ hs M hd]

/-- The full Hessian of `exp(p0) * p1 + log(p1)` is returned. -/
example : ∃ r, valueGradientHessian (some sampleE) (some [0, 1]) false sampleS = .ok r := by
  simp [valueGradientHessian, gradientExprs, tapeGradient, fullHessian, sampleE, pull, Except.map, gather, allSome, Fn.deriv, column,
    pure, Except.pure, Bind.bind, Except.bind]

/-- Its diagonal too. -/
example : ∃ r, valueGradientHessian (some sampleE) (some [0, 1]) true sampleS = .ok r := by
  simp [valueGradientHessian, gradientExprs, tapeGradient, diagExprs, sampleE, pull, Except.map, gather, allSome, Fn.deriv,
    pure, Except.pure, Bind.bind, Except.bind]

/-! ### When there is a Hessian -/

theorem usesCache_mono (ps : List ℕ) (i : ℕ) (hi : i ∈ ps) (e : Expr) (h : e.usesCache ps = false) : e.usesCache [i] = false := by
  induction e with
  | par j => rfl
  | const c => rfl
  | add a b iha ihb =>
    simp only [Expr.usesCache, Bool.or_eq_false_iff] at h ⊢
    exact ⟨iha h.1, ihb h.2⟩
  | mul a b iha ihb =>
    simp only [Expr.usesCache, Bool.or_eq_false_iff] at h ⊢
    exact ⟨iha h.1, ihb h.2⟩
  | fn f a iha => exact iha h
  | cached a iha =>
    simp only [Expr.usesCache, List.any_eq_false] at h
    simp only [Expr.usesCache, List.any_cons, List.any_nil, Bool.or_false]
    simpa using h i hi

/-- No cached PDF gets into the gradients. -/
theorem pull_cache (ps qs : List ℕ) (e : Expr) (he : e.usesCache qs = false) :
    ∀ dy l, dy.usesCache qs = false → pull ps e dy = .ok l → ∀ q ∈ l, q.2.usesCache qs = false := by
  induction e with
  | par j =>
    intro dy l hd h
    simp only [pull, Except.ok.injEq] at h
    subst h
    split <;> simp [hd]
  | const c =>
    intro dy l hd h
    simp only [pull, Except.ok.injEq] at h
    subst h
    simp
  | add a b iha ihb =>
    simp only [Expr.usesCache, Bool.or_eq_false_iff] at he
    intro dy l hd h
    rw [pull] at h
    split at h
    · cases h
    · rename_i la hla
      split at h
      · cases h
      · rename_i lb hlb
        simp only [Except.ok.injEq] at h
        subst h
        intro q hq
        rcases List.mem_append.1 hq with hq | hq
        · exact iha he.1 dy la hd hla q hq
        · exact ihb he.2 dy lb hd hlb q hq
  | mul a b iha ihb =>
    simp only [Expr.usesCache, Bool.or_eq_false_iff] at he
    intro dy l hd h
    rw [pull] at h
    split at h
    · cases h
    · rename_i la hla
      split at h
      · cases h
      · rename_i lb hlb
        simp only [Except.ok.injEq] at h
        subst h
        intro q hq
        rcases List.mem_append.1 hq with hq | hq
        · exact iha he.1 (.mul dy b) la (by simp [Expr.usesCache, hd, he.2]) hla q hq
        · exact ihb he.2 (.mul dy a) lb (by simp [Expr.usesCache, hd, he.1]) hlb q hq
  | fn f a iha =>
    simp only [Expr.usesCache] at he
    intro dy l hd h
    rw [pull] at h
    refine iha he (.mul dy (f.deriv a)) l ?_ h
    cases f <;> simp [Fn.deriv, Expr.usesCache, hd, he]
  | cached a iha =>
    intro dy l hd h
    rw [pull] at h
    split at h
    · cases h
    · simp only [Except.ok.injEq] at h
      subst h
      simp

theorem gather_cache (l : List (ℕ × Expr)) (i : ℕ) (g : Expr) (h : gather l i = some g) (qs : List ℕ)
    (hl : ∀ q ∈ l, q.2.usesCache qs = false) : g.usesCache qs = false := by
  unfold gather at h
  split at h
  · cases h
  · cases h
    have : ∀ m : List Expr, (∀ a ∈ m, a.usesCache qs = false) → (m.foldr Expr.add (.const 0)).usesCache qs = false := by
      intro m hm
      induction m with
      | nil => rfl
      | cons a m ih =>
        simp only [List.foldr_cons, Expr.usesCache, Bool.or_eq_false_iff]
        exact ⟨hm a (by simp), ih fun b hb => hm b (by simp [hb])⟩
    refine this _ ?_
    intro a ha
    obtain ⟨q, hq, rfl⟩ := List.mem_map.1 ha
    exact hl q (List.mem_of_mem_filter hq)

theorem mapM_exists {α β : Type} (f : α → Except Fail β) (l : List α) (h : ∀ a ∈ l, ∃ b, f a = .ok b) : ∃ r, l.mapM f = .ok r := by
  induction l with
  | nil => exact ⟨[], rfl⟩
  | cons a l ih =>
    obtain ⟨b, hb⟩ := h a (by simp)
    obtain ⟨r, hr⟩ := ih fun c hc => h c (by simp [hc])
    refine ⟨b :: r, ?_⟩
    rw [mapM_ok] at hr ⊢
    simp [hb, hr]

theorem allSome_exists {α : Type} (l : List (Option α)) (h : ∀ a ∈ l, a ≠ none) : ∃ r, allSome l = .ok r := by
  induction l with
  | nil => exact ⟨[], rfl⟩
  | cons a l ih =>
    obtain ⟨r, hr⟩ := ih fun c hc => h c (by simp [hc])
    cases a with
    | none => exact absurd rfl (h none (by simp))
    | some a => exact ⟨a :: r, by rw [allSome, hr]; rfl⟩

/-- **C267.** Where there is a gradient of a smooth function there should be a Hessian, and its diagonal.  Proved: the full matrix
is returned if every row has an entry that is not zero, the diagonal if each of its entries is not zero.

Missing from the full claim: zeros, for example a parameter in which the function is linear (`hessian_exists_violated`). -/
theorem hessian_exists_partial (e : Expr) (ps : List ℕ) (s : ℕ → Par) (v : ℝ) (g : List ℝ) (h : valueGradient e ps s = .ok (v, g))
    (hs : e.Smooth (values s)) :
    ((∀ j ∈ ps, ∃ i ∈ ps, pd j (pd i e.eval) (values s) ≠ 0) → ∃ r, valueGradientHessian (some e) (some ps) false s = .ok r) ∧
    ((∀ i ∈ ps, pd i (pd i e.eval) (values s) ≠ 0) → ∃ r, valueGradientHessian (some e) (some ps) true s = .ok r) := by
  obtain ⟨hr, hc⟩ := (gradient_exists_partial e ps s).1.1 ⟨v, g, h⟩
  obtain ⟨gs, hg⟩ := (gradient_returned e ps).2 ⟨hr, hc⟩
  obtain ⟨l, hl, hm⟩ := gradientExprs_ok ps e gs hg
  have hcg : ∀ k ∈ gs, k.usesCache ps = false := by
    intro k hk
    obtain ⟨n, hn⟩ := List.mem_iff_getElem?.1 hk
    obtain ⟨i, -, -, hgi⟩ := grad_entry ps l gs hm n k hn
    exact gather_cache l i k hgi ps (pull_cache ps ps e hc (.const 1) l rfl hl)
  have a2 := congrArg List.length hm
  simp only [List.length_map] at a2
  unfold valueGradientHessian
  dsimp only
  rw [hg]
  constructor
  · intro hne
    simp only [Bool.false_eq_true, if_false]
    obtain ⟨ls, hls⟩ := mapM_exists (fun k => pull ps k (.const 1)) gs fun k hk => (pull_ok ps k _).2 (hcg k hk)
    have hall : ∃ r, fullHessian ps gs (values s) = .ok r := by
      unfold fullHessian
      rw [hls]
      refine allSome_exists _ ?_
      intro c hcm
      obtain ⟨j, hj, rfl⟩ := List.mem_map.1 hcm
      obtain ⟨i, hi, hij⟩ := hne j hj
      obtain ⟨n, hn⟩ := List.mem_iff_getElem?.1 hi
      have hnl : n < ps.length := by
        by_contra hcon
        rw [List.getElem?_eq_none (by omega)] at hn
        cases hn
      have hgn : n < gs.length := by omega
      obtain ⟨i', hi', -, hgi⟩ := grad_entry ps l gs hm n gs[n] (List.getElem?_eq_getElem hgn)
      rw [hn] at hi'
      cases hi'
      rw [mapM_ok] at hls
      have a1 := congrArg List.length hls
      simp only [List.length_map] at a1
      have hln : n < ls.length := by omega
      have hpk : pull ps gs[n] (.const 1) = .ok ls[n] := by
        have := congrArg (·[n]?) hls
        simp only [List.getElem?_map, List.getElem?_eq_getElem hgn, List.getElem?_eq_getElem hln, Option.map_some, Option.some.injEq] at this
        exact this
      have hse := second_entry ps gs[n] ls[n] hpk j hj (values s) (grad_smooth ps e l hl i _ hgi _ hs)
      rw [gather_pd_pd ps e l hl i hi _ hgi j _ hs] at hse
      unfold column
      split
      · rename_i hnone
        rw [List.all_eq_true] at hnone
        have := hnone _ (List.mem_map_of_mem (List.getElem_mem hln))
        rw [Option.isNone_iff_eq_none] at this
        rw [this] at hse
        exact absurd hse.symm hij
      · simp
    obtain ⟨r, hr'⟩ := hall
    rw [hr']
    exact ⟨_, rfl⟩
  · intro hne
    simp only [if_true]
    have hcz : ∀ q ∈ List.zip ps gs, q.2.usesCache [q.1] = false := by
      intro q hq
      exact usesCache_mono ps q.1 (List.of_mem_zip hq).1 _ (hcg _ (List.of_mem_zip hq).2)
    obtain ⟨ls, hls⟩ := mapM_exists (fun q : ℕ × Expr => tapeGradient [q.1] q.2) (List.zip ps gs) (by
      intro q hq
      obtain ⟨m, hm'⟩ := (pull_ok [q.1] q.2 (.const 1)).2 (hcz q hq)
      exact ⟨_, by unfold tapeGradient; rw [hm']; rfl⟩)
    have hall : ∃ r, diagExprs ps gs = .ok r := by
      unfold diagExprs
      rw [hls]
      refine allSome_exists _ ?_
      intro c hcm
      obtain ⟨m, hmm, rfl⟩ := List.mem_map.1 hcm
      obtain ⟨n, hn⟩ := List.mem_iff_getElem?.1 hmm
      rw [mapM_ok] at hls
      have h1 := congrArg (·[n]?) hls
      simp only [List.getElem?_map, hn, Option.map_some] at h1
      rw [Option.map_eq_some_iff] at h1
      obtain ⟨q, hq, hqm⟩ := h1
      rw [List.getElem?_zip_eq_some] at hq
      obtain ⟨i, hi, himem, hgi⟩ := grad_entry ps l gs hm n q.2 hq.2
      rw [hq.1] at hi
      cases hi
      unfold tapeGradient at hqm
      cases hp : pull [q.1] q.2 (.const 1) with
      | error err => rw [hp] at hqm; cases hqm
      | ok m' =>
        rw [hp] at hqm
        simp only [Except.map, List.map_cons, List.map_nil, Except.ok.injEq] at hqm
        subst hqm
        simp only [List.getElem?_cons_zero, Option.getD_some]
        intro hnone
        have hse := second_entry [q.1] q.2 m' hp q.1 (by simp) (values s) (grad_smooth ps e l hl q.1 _ hgi _ hs)
        rw [gather_pd_pd ps e l hl q.1 himem _ hgi q.1 _ hs, hnone] at hse
        exact hne q.1 himem hse.symm
    obtain ⟨r, hr'⟩ := hall
    rw [hr']
    exact ⟨_, rfl⟩

/-- **C267**, where it fails: `3 * p0` has a gradient but no Hessian, and `p0 * p1` has a Hessian but with `hessian="diag"` there is
none, although all second derivatives exist. -/
theorem hessian_exists_violated :
    (∃ (e : Expr) (ps : List ℕ) (s : ℕ → Par), e.Smooth (values s) ∧ (∃ r, valueGradient e ps s = .ok r) ∧
      pd 0 (pd 0 e.eval) (values s) = 0 ∧ valueGradientHessian (some e) (some ps) false s = .error .noneInList) ∧
    ∃ (e : Expr) (ps : List ℕ) (s : ℕ → Par), e.Smooth (values s) ∧ (∃ r, valueGradientHessian (some e) (some ps) false s = .ok r) ∧
      valueGradientHessian (some e) (some ps) true s = .error .noneInList := by
  constructor
  · refine ⟨.mul (.const 3) (.par 0), [0], fun _ => ⟨none, none, 3⟩, ⟨trivial, trivial⟩, ?_, ?_, ?_⟩
    · simp [valueGradient, gradientExprs, tapeGradient, pull, Except.map, gather, allSome]
    · have h1 : ∀ x : ℕ → ℝ, pd 0 (Expr.mul (.const 3) (.par 0)).eval x = 3 := by
        intro x
        simp [pd, Expr.eval]
      unfold pd at h1 ⊢
      simp only [h1, deriv_const]
    · simp [valueGradientHessian, gradientExprs, tapeGradient, fullHessian, pull, Except.map, gather, allSome, column,
        pure, Except.pure, Bind.bind, Except.bind]
  · refine ⟨.mul (.par 0) (.par 1), [0, 1], fun _ => ⟨none, none, 3⟩, ⟨trivial, trivial⟩, ?_, ?_⟩
    · simp [valueGradientHessian, gradientExprs, tapeGradient, fullHessian, pull, Except.map, gather, allSome, column,
        pure, Except.pure, Bind.bind, Except.bind]
    · simp [valueGradientHessian, gradientExprs, tapeGradient, diagExprs, pull, Except.map, gather, allSome,
        pure, Except.pure, Bind.bind, Except.bind]

/-- The hypotheses of C267 hold for `exp(p0)`. -/
example : (∃ r, valueGradient (.fn .exp (.par 0)) [0] sampleS = .ok r) ∧
    ∀ i ∈ [0], pd i (pd i (Expr.fn .exp (.par 0)).eval) (values sampleS) ≠ 0 := by
  constructor
  · simp [valueGradient, gradientExprs, tapeGradient, pull, Except.map, gather, allSome]
  · intro i hi
    simp only [List.mem_singleton] at hi
    subst hi
    have h1 : ∀ x : ℕ → ℝ, pd 0 (Expr.fn .exp (.par 0)).eval x = Real.exp (x 0) := by
      intro x
      simp [pd, Expr.eval, Fn.eval]
    have h2 : pd 0 (Expr.fn .exp (.par 0)).eval = (Expr.fn .exp (.par 0)).eval := by
      funext x
      rw [h1]
      rfl
    rw [h2, h1]
    exact (Real.exp_pos _).ne'

end Zfit.Tape
