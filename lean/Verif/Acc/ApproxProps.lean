import Verif.Acc.ApproxModel
import Verif.Common.Except
import Mathlib.Algebra.Group.Defs
import Mathlib.Data.Rat.Defs
import Mathlib.Algebra.Field.Rat
import Mathlib.Tactic.Common

/-!
# Approximations of a result (C188-C191) and what it says about itself (C192)
-/

namespace Zfit.Acc

open Zfit

variable {G M V : Type}

/-! ## C188: Hessian and inverse -/

/-- The answer if nothing was asked before: what was given, or the inverse of the other. -/
def Approx.spec (inv : M → Except Err M) (a : Approx G M) : Ask → Except Err (Option M)
  | .hessian _ =>
    match a.hessian, a.invHessian with
    | some h, _ => .ok (some h)
    | none, some i => (inv i).map some
    | none, none => .ok none
  | .invHessian _ =>
    match a.invHessian, a.hessian with
    | some i, _ => .ok (some i)
    | none, some h => (inv h).map some
    | none, none => .ok none

/-- What is stored after some calls: what was given stays, and what was added is the inverse of it. -/
def Approx.Later (inv : M → Except Err M) (a b : Approx G M) : Prop :=
  b.params = a.params ∧ b.gradient = a.gradient
    ∧ (b.hessian = a.hessian ∨ a.hessian = none ∧ ∃ i h, a.invHessian = some i ∧ inv i = .ok h ∧ b.hessian = some h)
    ∧ (b.invHessian = a.invHessian ∨ a.invHessian = none ∧ ∃ h i, a.hessian = some h ∧ inv h = .ok i ∧ b.invHessian = some i)

theorem later_refl (inv : M → Except Err M) (a : Approx G M) : a.Later inv a := ⟨rfl, rfl, Or.inl rfl, Or.inl rfl⟩

theorem later_ask (inv : M → Except Err M) (a b : Approx G M) (h : a.Later inv b) (c : Ask) : a.Later inv (b.ask inv c).2 := by
  obtain ⟨h1, h2, h3, h4⟩ := h
  cases c with
  | hessian invert =>
    simp only [Approx.ask]
    unfold Approx.getHessian
    cases hb : b.hessian with
    | some x => exact ⟨h1, h2, h3, h4⟩
    | none =>
      dsimp only
      split
      · cases hi : b.invHessian with
        | none => exact ⟨h1, h2, h3, h4⟩
        | some i =>
          dsimp only
          cases hv : inv i with
          | error e => exact ⟨h1, h2, h3, h4⟩
          | ok x =>
            have ha : a.hessian = none := by
              rcases h3 with e | ⟨e, _⟩
              · rw [← e, hb]
              · exact e
            have hai : a.invHessian = some i := by
              rcases h4 with e | ⟨_, y, z, e, _⟩
              · rw [← e, hi]
              · rw [ha] at e; cases e
            rw [hi] at h4
            exact ⟨h1, h2, Or.inr ⟨ha, i, x, hai, hv, rfl⟩, h4⟩
      · exact ⟨h1, h2, h3, h4⟩
  | invHessian invert =>
    simp only [Approx.ask]
    unfold Approx.getInvHessian
    cases hb : b.invHessian with
    | some x => exact ⟨h1, h2, h3, h4⟩
    | none =>
      dsimp only
      split
      · cases hi : b.hessian with
        | none => exact ⟨h1, h2, h3, h4⟩
        | some i =>
          dsimp only
          cases hv : inv i with
          | error e => exact ⟨h1, h2, h3, h4⟩
          | ok x =>
            have ha : a.invHessian = none := by
              rcases h4 with e | ⟨e, _⟩
              · rw [← e, hb]
              · exact e
            have hai : a.hessian = some i := by
              rcases h3 with e | ⟨_, y, z, e, _⟩
              · rw [← e, hi]
              · rw [ha] at e; cases e
            rw [hi] at h3
            exact ⟨h1, h2, h3, Or.inr ⟨ha, i, x, hai, hv, rfl⟩⟩
      · exact ⟨h1, h2, h3, h4⟩

theorem later_asked (inv : M → Except Err M) (a b : Approx G M) (h : a.Later inv b) (calls : List Ask) :
    a.Later inv (b.asked inv calls) := by
  induction calls generalizing b with
  | nil => exact h
  | cons c calls ih => exact ih _ (later_ask inv a b h c)

theorem later_answer (inv : M → Except Err M) (a b : Approx G M) (h : a.Later inv b) :
    (b.getHessian inv true).1 = a.spec inv (.hessian true) ∧ (b.getInvHessian inv true).1 = a.spec inv (.invHessian true) := by
  obtain ⟨_, _, h3, h4⟩ := h
  unfold Approx.getHessian Approx.getInvHessian Approx.spec
  rcases h3 with e3 | ⟨e3, i, x, e3i, e3v, e3b⟩
  · rcases h4 with e4 | ⟨e4, j, y, e4j, e4v, e4b⟩
    · rw [e3, e4]
      constructor
      · cases a.hessian <;> dsimp only
        cases hq : a.invHessian <;> dsimp only
        · rfl
        · rename_i q
          cases hv : inv q <;> simp [hv, Except.map]
      · cases a.invHessian <;> dsimp only
        cases hq : a.hessian <;> dsimp only
        · rfl
        · rename_i q
          cases hv : inv q <;> simp [hv, Except.map]
    · rw [e3, e4, e4j, e4b]
      simp [e4v, Except.map]
  · rcases h4 with e4 | ⟨e4, j, y, e4j, e4v, e4b⟩
    · rw [e3, e4, e3i, e3b]
      simp [e3v, Except.map]
    · rw [e3] at e4j; cases e4j

/-- C188, in part.  Whatever was asked before, `hessian()` and `inv_hessian()` give what the approximations were made with, or the inverse of the
other one, and the parameters and the gradient stay; if only one of them was given, the answers are inverse to each other.
Missing: `invert=False` (`no_invert_violated`). -/
theorem inverse_partial [Monoid M] (inv : M → Except Err M) (hinv : ∀ m m', inv m = .ok m' → m * m' = 1 ∧ m' * m = 1) (a : Approx G M)
    (calls : List Ask) :
    let b := a.asked inv calls
    (b.getHessian inv true).1 = a.spec inv (.hessian true) ∧ (b.getInvHessian inv true).1 = a.spec inv (.invHessian true)
      ∧ b.params = a.params ∧ b.gradient = a.gradient
      ∧ ∀ h i, (b.getHessian inv true).1 = .ok (some h) → (b.getInvHessian inv true).1 = .ok (some i) →
          (a.hessian = none ∨ a.invHessian = none) → h * i = 1 ∧ i * h = 1 := by
  intro b
  have hl : a.Later inv b := later_asked inv a a (later_refl inv a) calls
  obtain ⟨h1, h2⟩ := later_answer inv a b hl
  refine ⟨h1, h2, hl.1, hl.2.1, ?_⟩
  intro h i hh hi ho
  rw [h1] at hh
  rw [h2] at hi
  unfold Approx.spec at hh hi
  rcases ho with ho | ho
  · rw [ho] at hh hi
    cases hq : a.invHessian with
    | none => rw [hq] at hh; cases hh
    | some q =>
      rw [hq] at hh hi
      dsimp only at hh hi
      cases hi
      cases hv : inv i with
      | error e => rw [hv] at hh; cases hh
      | ok x =>
        rw [hv] at hh
        cases hh
        exact ⟨(hinv _ _ hv).2, (hinv _ _ hv).1⟩
  · rw [ho] at hh hi
    cases hq : a.hessian with
    | none => rw [hq] at hi; cases hi
    | some q =>
      rw [hq] at hh hi
      dsimp only at hh hi
      cases hh
      cases hv : inv h with
      | error e => rw [hv] at hi; cases hi
      | ok x =>
        rw [hv] at hi
        cases hi
        exact hinv _ _ hv

/-- One parameter: the Hessian is a number. -/
example :
    let inv : ℚ → Except Err ℚ := fun x => if x = 0 then .error .valueError else .ok x⁻¹
    (∀ m m', inv m = .ok m' → m * m' = 1 ∧ m' * m = 1) ∧
      let a : Approx Unit ℚ := ⟨[.par ⟨0, "a"⟩], none, some 4, none⟩
      ((a.asked inv [.invHessian true, .hessian false]).getInvHessian inv true).1 = .ok (some (1 / 4)) := by
  refine ⟨?_, by decide +kernel⟩
  intro m m' h
  dsimp only at h
  split at h
  · cases h
  · rename_i hm
    cases h
    exact ⟨mul_inv_cancel₀ hm, inv_mul_cancel₀ hm⟩

/-- C188 violated: with `invert=False`, an inverse Hessian that was not given is returned if it has been asked for before with
`invert=True`, and `None` otherwise (/repo/zfit/minimizers/fitresult.py:165-171). -/
theorem no_invert_violated :
    ∃ (inv : ℚ → Except Err ℚ) (a : Approx Unit ℚ),
      (a.getInvHessian inv false).1 = .ok none
        ∧ ((a.asked inv [.invHessian true]).getInvHessian inv false).1 = .ok (some (1 / 4)) := by
  refine ⟨fun x => .ok x⁻¹, ⟨[.par ⟨0, "a"⟩], none, some 4, none⟩, ?_⟩
  decide +kernel

/-! ## C189: the approximate covariance -/

theorem get_dictSets {κ : Type} [DecidableEq κ] (ks : List (κ × V)) (k : κ) (v : V) (h : (k, v) ∈ ks) (hu : ∀ w, (k, w) ∈ ks → w = v)
    (acc : List (κ × V)) : dictGet (ks.foldl (fun d kv => dictSet d kv.1 kv.2) acc) k = some v := by
  have key : ∀ (ks : List (κ × V)) (acc : List (κ × V)), (∀ w, (k, w) ∈ ks → w = v) →
      ((k, v) ∈ ks ∨ dictGet acc k = some v) → dictGet (ks.foldl (fun d kv => dictSet d kv.1 kv.2) acc) k = some v := by
    intro ks
    induction ks with
    | nil =>
      intro acc _ h
      rcases h with h | h
      · cases h
      · exact h
    | cons x ks ih =>
      intro acc hu h
      rw [List.foldl_cons]
      refine ih _ (fun w hw => hu w (by simp [hw])) ?_
      by_cases hx : x.1 = k
      · right
        have : x.2 = v := hu x.2 (by rw [← hx]; simp)
        rw [← hx, ← this]
        exact dictGet_set_self _ _ _
      · rcases h with h | h
        · rcases List.mem_cons.1 h with h | h
          · exact absurd (congrArg Prod.fst h).symm hx
          · exact Or.inl h
        · right
          rw [dictGet_set_ne _ _ _ _ (Ne.symm hx), h]
  exact key ks acc hu (Or.inl h)

theorem mapM_index (rp ps : List Key) (h : ∀ p ∈ ps, p ∈ rp) :
    (ps.mapM fun p => (pyIndex rp p).map fun i => (p, i)) = .ok (ps.map fun p => (p, rp.idxOf p)) := by
  induction ps with
  | nil => rfl
  | cons p ps ih =>
    rw [List.mapM_cons, ih fun q hq => h q (by simp [hq])]
    have : pyIndex rp p = .ok (rp.idxOf p) := by unfold pyIndex; rw [if_pos (h p (by simp))]
    simp [this, Except.map, except_bind_ok, except_pure]

/-- C189, in part.  If the approximations are those of the parameters of the result in the same order, the approximate covariance of two
parameters is the entry of the inverse Hessian of these two parameters.  Missing: approximations with the parameters in another
order (`order_violated`). -/
theorem approx_covariance_partial (resultParams approxParams : List Key) (he : approxParams = resultParams) (m : ℕ → ℕ → V)
    (ps : List Key) (hs : ∀ p ∈ ps, p ∈ resultParams) :
    ∃ d, covarianceApprox resultParams (some m) ps = .ok d
      ∧ ∀ p ∈ ps, ∀ q ∈ ps, ∃ i j : ℕ, approxParams[i]? = some p ∧ approxParams[j]? = some q ∧ dictGet d (p, q) = some (m i j) := by
  subst he
  unfold covarianceApprox
  rw [mapM_index approxParams ps hs]
  refine ⟨_, rfl, ?_⟩
  intro p hp q hq
  have hi : ∀ p ∈ ps, approxParams[approxParams.idxOf p]? = some p := by
    intro p hp
    have : approxParams.idxOf p < approxParams.length := List.idxOf_lt_length_iff.2 (hs p hp)
    rw [List.getElem?_eq_getElem this]
    simp
  refine ⟨approxParams.idxOf p, approxParams.idxOf q, hi p hp, hi q hq, ?_⟩
  have := get_dictSets (((ps.map fun p => (p, approxParams.idxOf p)).flatMap fun a => (ps.map fun p => (p, approxParams.idxOf p)).map
      fun b => (a, b)).map fun ab => ((ab.1.1, ab.2.1), m ab.1.2 ab.2.2)) (p, q) (m (approxParams.idxOf p) (approxParams.idxOf q)) ?_ ?_ []
  · rw [List.foldl_map] at this
    exact this
  · simp only [List.mem_map, List.mem_flatMap]
    exact ⟨((p, approxParams.idxOf p), (q, approxParams.idxOf q)), ⟨_, ⟨p, hp, rfl⟩, _, ⟨q, hq, rfl⟩, rfl⟩, rfl⟩
  · intro w hw
    simp only [List.mem_map, List.mem_flatMap] at hw
    obtain ⟨_, ⟨_, ⟨a, _, rfl⟩, _, ⟨b, _, rfl⟩, rfl⟩, hw⟩ := hw
    simp only [Prod.mk.injEq] at hw
    obtain ⟨⟨rfl, rfl⟩, rfl⟩ := hw
    rfl

/-- Two parameters. -/
example :
    let a : Key := .par ⟨0, "a"⟩
    let b : Key := .par ⟨1, "b"⟩
    (covarianceApprox [a, b] (some fun i j => 10 * i + j) [b, a]).map (fun d => (dictGet d (b, a), dictGet d (b, b)))
      = .ok (some 10, some 11) := by
  decide +kernel

/-- C189 violated: the approximations can be given with their own parameters, but the positions are those of the parameters of the result
(/repo/zfit/minimizers/fitresult.py:260-261): the variance of one parameter is reported as that of another. -/
theorem order_violated :
    ∃ (resultParams approxParams : List Key) (m : ℕ → ℕ → ℤ) (p : Key) (i : ℕ), approxParams.Perm resultParams
      ∧ approxParams[i]? = some p
      ∧ (covarianceApprox resultParams (some m) resultParams).map (fun d => dictGet d (p, p)) ≠ .ok (some (m i i)) := by
  refine ⟨[.par ⟨0, "a"⟩, .par ⟨1, "b"⟩], [.par ⟨1, "b"⟩, .par ⟨0, "a"⟩], fun i j => 10 * i + j, .par ⟨0, "a"⟩, 1,
    List.Perm.swap _ _ _, rfl, ?_⟩
  decide +kernel

/-! ## C190: where the approximations come from -/

/-- The documented information in the order of precedence: the mapping, `info`, the evaluator. -/
def firstGiven {A : Type} (sources : List (Option A)) : Option A := sources.findSome? id

/-- The gradient in an `info`. -/
def Info.anyGradient (i : Info G M) : Option G := firstGiven [i.grad.getD none, i.gradient.getD none]

/-- An `info` without any entry. -/
def Info.empty : Info G M := ⟨none, none, none, none, none, none, none, none, false⟩

theorem truthy_iff (i : Info G M) : i.truthy = true ↔ i ≠ Info.empty := by
  obtain ⟨a, b, c, d, e, f, g, h, o⟩ := i
  unfold Info.truthy Info.empty
  cases a <;> cases b <;> cases c <;> cases d <;> cases e <;> cases f <;> cases g <;> cases h <;> cases o <;> simp

/-- C190, in part.  Without an `info`, or with an empty one, the gradient and the Hessian are those given in the mapping or else the last ones of the
evaluator; with an `info`, the gradient given in the mapping or else the one in `info`.  The parameters are those given or those of
the result.  Missing: what the evaluator has, if there is an `info` (`evaluator_ignored_violated`), and the Hessian given to
`from_nlopt` (`nlopt_hessian_violated`). -/
theorem sources_partial (size : G → ℕ) (m : ApproxMap G M) (params : List Key) (info : Option (Info G M)) (ev : Option (Evaluator G M))
    (a : Approx G M) (h : (convertApprox size (.mapping m) params info ev).1 = .ok a) :
    a.params = m.params.getD params
      ∧ ((∀ i, info = some i → i = Info.empty) →
          a.gradient = m.gradient.getD (ev.bind (·.lastGradient)) ∧ a.hessian = m.hessian.getD (ev.bind (·.lastHessian))
            ∧ a.invHessian = m.invHessian.getD none)
      ∧ (∀ i, info = some i → i ≠ Info.empty →
          a.gradient = m.gradient.getD (i.grad.getD (i.gradient.getD none))
            ∧ a.hessian = m.hessian.getD (i.hess.getD (i.hesse.getD (i.hessian.getD none)))
            ∧ a.invHessian = m.invHessian.getD (i.invHess.getD (i.invHesse.getD (i.invHessian.getD none)))) := by
  unfold convertApprox at h
  dsimp only at h
  have hval : a.params = ((m.fill params info ev).params.getD []) ∧ a.gradient = (m.fill params info ev).gradient.getD none
      ∧ a.hessian = (m.fill params info ev).hessian.getD none ∧ a.invHessian = (m.fill params info ev).invHessian.getD none := by
    split at h
    · cases h
    · split at h
      · rename_i g hg
        split at h
        · cases h; exact ⟨rfl, hg.symm, rfl, rfl⟩
        · cases h
      · rename_i hg
        cases h; exact ⟨rfl, hg.symm, rfl, rfl⟩
  obtain ⟨v1, v2, v3, v4⟩ := hval
  refine ⟨?_, ?_, ?_⟩
  · rw [v1]
    unfold ApproxMap.fill
    cases info with
    | none => cases ev <;> rfl
    | some i => by_cases ht : i.truthy <;> cases ev <;> simp [ht]
  · intro hi
    rw [v2, v3, v4]
    unfold ApproxMap.fill
    cases info with
    | none => cases ev <;> cases m.gradient <;> cases m.hessian <;> simp
    | some i =>
      have : i.truthy = false := by
        rw [Bool.eq_false_iff, Ne, truthy_iff]
        exact fun h => h (hi i rfl)
      cases ev <;> cases m.gradient <;> cases m.hessian <;> simp [this]
  · intro i hi ht
    subst hi
    rw [← truthy_iff] at ht
    rw [v2, v3, v4]
    unfold ApproxMap.fill
    cases ev <;> simp [ht]

/-- A gradient of the evaluator, an `info` that has one, and a mapping that has one. -/
example :
    let a : Key := .par ⟨0, "a"⟩
    let ev : Evaluator (List ℤ) ℤ := ⟨some [1], some 2⟩
    let m : ApproxMap (List ℤ) ℤ := ⟨none, none, none, none, false⟩
    let i : Info (List ℤ) ℤ := ⟨some (some [5]), none, none, none, none, none, none, none, false⟩
    (convertApprox List.length (.mapping m) [a] none (some ev)).1 = .ok ⟨[a], some [1], some 2, none⟩
      ∧ (convertApprox List.length (.mapping m) [a] (some i) (some ev)).1 = .ok ⟨[a], some [5], none, none⟩
      ∧ (convertApprox List.length (.mapping (⟨none, some (some [(7 : ℤ)]), none, none, false⟩ : ApproxMap (List ℤ) ℤ)) [a] (some i) (some ev)).1
          = .ok ⟨[a], some [7], none, none⟩
      ∧ (convertApprox List.length (.mapping (⟨none, some (some [(7 : ℤ), 8]), none, none, false⟩ : ApproxMap (List ℤ) ℤ)) [a] (some i) (some ev)).1
          = .error .valueError := by
  decide +kernel

/-- C190 violated: if there is any `info`, as in the results of all minimisers of libraries, the entries that it lacks are set to `None`, and the last
gradient and Hessian of the evaluator are never used (/repo/zfit/minimizers/fitresult.py:497-508). -/
theorem evaluator_ignored_violated :
    ∃ (params : List Key) (info : Info (List ℤ) ℤ) (ev : Evaluator (List ℤ) ℤ) (a : Approx (List ℤ) ℤ),
      ev.lastGradient.isSome = true ∧ info.anyGradient = none
        ∧ (convertApprox List.length .none params (some info) (some ev)).1 = .ok a ∧ a.gradient = none ∧ a.hessian = none := by
  refine ⟨[.par ⟨0, "a"⟩], ⟨none, none, none, none, none, none, none, none, true⟩, ⟨some [1], some 2⟩,
    ⟨[.par ⟨0, "a"⟩], none, none, none⟩, ?_⟩
  decide +kernel

/-- The inverse Hessian given to `from_nlopt` is that of the approximations, for every evaluator. -/
theorem nlopt_inverse (size : G → ℕ) (params : List Key) (hessian : Option M) (i : M) (ev : Option (Evaluator G M)) :
    nloptApprox size params hessian (some i) ev = .ok ⟨params, none, none, some i⟩ := by
  unfold nloptApprox convertApprox ApproxMap.fill
  cases ev <;> simp [Info.truthy]

/-- C190 violated: a Hessian given to `from_nlopt`, which is documented, is not used: neither the Hessian nor its inverse is available afterwards,
whatever the evaluator knows, of which nothing is used either (/repo/zfit/minimizers/fitresult.py:1020-1030). -/
theorem nlopt_hessian_violated :
    ∃ (params : List Key) (h : ℚ) (inv : ℚ → Except Err ℚ) (a : Approx Unit ℚ),
      (∀ ev, nloptApprox (fun _ => 1) params (some h) none ev = .ok a)
        ∧ a.gradient = none ∧ (a.getHessian inv true).1 = .ok none ∧ (a.getInvHessian inv true).1 = .ok none := by
  refine ⟨[.par ⟨0, "a"⟩], 4, fun x => .ok x⁻¹, ⟨[.par ⟨0, "a"⟩], none, none, none⟩, ?_, ?_⟩
  · intro ev
    cases ev <;> rfl
  · decide +kernel

/-! ## C191: the mapping given as approximations -/

/-- C191, in part.  Approximations and a mapping that has all four entries are left as they were, whatever else is given and whether or not the
result can be made.  Missing: other mappings (`mapping_changed_violated`). -/
theorem mapping_kept_partial (size : G → ℕ) (arg : ApproxArg G M) (params : List Key) (info : Option (Info G M))
    (ev : Option (Evaluator G M))
    (h : ∀ m, arg = .mapping m → m.params.isSome ∧ m.gradient.isSome ∧ m.hessian.isSome ∧ m.invHessian.isSome) :
    (convertApprox size arg params info ev).2 = arg := by
  unfold convertApprox
  dsimp only
  cases arg with
  | none => rfl
  | approximations a => rfl
  | mapping m =>
    obtain ⟨h1, h2, h3, h4⟩ := h m rfl
    obtain ⟨p, g, hh, ii, o⟩ := m
    obtain ⟨p, rfl⟩ := Option.isSome_iff_exists.1 h1
    obtain ⟨g, rfl⟩ := Option.isSome_iff_exists.1 h2
    obtain ⟨hh, rfl⟩ := Option.isSome_iff_exists.1 h3
    obtain ⟨ii, rfl⟩ := Option.isSome_iff_exists.1 h4
    dsimp only
    unfold ApproxMap.fill
    cases info with
    | none => cases ev <;> simp
    | some i => by_cases ht : i.truthy <;> cases ev <;> simp [ht]

/-- A mapping with all entries. -/
example :
    let arg : ApproxArg (List ℤ) ℤ := .mapping ⟨some [.par ⟨0, "a"⟩], some (some [3]), some none, some none, false⟩
    (convertApprox List.length arg [] none (some ⟨some [1], some 2⟩)).2 = arg := by
  decide +kernel

/-- C191 violated: the parameters of the result and the approximations of the first fit are written into the mapping that the caller gave
(/repo/zfit/minimizers/fitresult.py:493-508); if it is used for the next result, that one gets the gradient of the first. -/
theorem mapping_changed_violated :
    ∃ (m : ApproxMap (List ℤ) ℤ) (params : List Key) (ev ev' : Evaluator (List ℤ) ℤ),
      (convertApprox List.length (.mapping m) params none (some ev)).2 ≠ .mapping m
        ∧ ((convertApprox List.length (convertApprox List.length (.mapping m) params none (some ev)).2 params none (some ev')).1.map
            fun a => a.gradient) = .ok ev.lastGradient
        ∧ ((convertApprox List.length (.mapping m) params none (some ev')).1.map fun a => a.gradient) = .ok ev'.lastGradient
        ∧ ev.lastGradient ≠ ev'.lastGradient := by
  refine ⟨⟨none, none, none, none, false⟩, [.par ⟨0, "a"⟩], ⟨some [1], none⟩, ⟨some [2], none⟩, ?_⟩
  decide +kernel

/-! ## C192: what a result says about itself -/

/-- C192, in part.  If no message was given, and the minimiser did not say that it has not converged, then a result is valid exactly if its
message is empty, also after any number of calls of `errors`.  Missing: not converged (`not_converged_violated`) and the status
(`status_violated`). -/
theorem message_partial (valid converged : Option Bool) (status : Option ℤ) (atLimit : Bool) (hc : converged ≠ some false)
    (calls : List Bool) :
    let s := calls.foldl Says.errors (describe valid converged status none atLimit)
    s.isValid = true ↔ s.message = "" := by
  have key : ∀ (calls : List Bool) (s : Says), (s.isValid = true ↔ s.message = "") →
      ((calls.foldl Says.errors s).isValid = true ↔ (calls.foldl Says.errors s).message = "") := by
    intro calls
    induction calls with
    | nil => intro s h; exact h
    | cons b calls ih =>
      intro s h
      refine ih _ ?_
      cases b with
      | false => exact h
      | true => simp [Says.errors, Says.isValid, yes]
  refine key calls _ ?_
  unfold describe
  dsimp only
  cases atLimit with
  | true =>
    simp only [if_true, Says.isValid, yes]
    constructor
    · intro h; simp at h
    · intro h
      exact absurd (congrArg String.length h) (by simp [String.length_append])
  | false =>
    simp only [Says.isValid]
    cases valid with
    | none => simp [yes]
    | some v =>
      cases v with
      | false => simp [yes]
      | true =>
        cases converged with
        | none => simp [yes]
        | some c =>
          cases c with
          | true => simp [yes]
          | false => exact absurd rfl hc

/-- A valid result, one at a limit, and one that is not valid. -/
example :
    (describe (some true) none none none false).isValid = true ∧ (describe (some true) none none none true).isValid = false
      ∧ (describe (some true) none none none true).message = "parameter(s) at their limit."
      ∧ (describe (some false) none none (some "x") true).message = "x AND parameter(s) at their limit." := by
  decide +kernel

/-- C192 violated: a result made as valid but not converged is not valid, and says nothing about the reason
(/repo/zfit/minimizers/fitresult.py:417-418, 1131). -/
theorem not_converged_violated :
    (describe (some true) (some false) none none false).isValid = false
      ∧ (describe (some true) (some false) none none false).message = "" := by
  decide +kernel

/-- C192 violated: a result with a parameter at its limit is not valid, but its status is 0, which means a valid termination
(/repo/zfit/minimizers/fitresult.py:413-430). -/
theorem status_violated :
    (describe (some true) none none none true).isValid = false ∧ (describe (some true) none none none true).status = 0 := by
  decide +kernel

end Zfit.Acc
