import Verif.Unc.ReparamProps
import Mathlib.Analysis.Calculus.Deriv.Comp
import Mathlib.Analysis.Calculus.Deriv.Prod
import Mathlib.Tactic.FieldSimp

/-!
# Property C314 (see /verif/properties.jsonl): the choice of the parameters makes no difference to the asymmetric errors
-/

namespace Zfit.Unc

open Zfit Matrix

variable {n m : Type}

/-! ### Specification -/

/-- Two searches for the error of one parameter of the same fit, the second in terms of other parameters `y`: the first parameters are `φ y`, and the
one of interest is `γ` of the other one of interest, whatever the remaining ones.  There may be more or fewer of them. -/
structure SameFit (φ : (m → ℝ) → (n → ℝ)) (γ : ℝ → ℝ) (s : Search n) (s' : Search m) : Prop where
  loss : ∀ y, s'.loss y = s.loss (φ y)
  poi : ∀ y, φ y s.poi = γ (y s'.poi)
  value : s.values s.poi = γ (s'.values s'.poi)
  fmin : s'.fmin = s.fmin
  errordef : s'.errordef = s.errordef
  sigma : s'.sigma = s.sigma
  rtol : s'.rtol = s.rtol
  minTol : s'.minTol = s.minTol

/-- The end of the second search in terms of the first parameters. -/
def End.change (φ : (m → ℝ) → (n → ℝ)) (γ : ℝ → ℝ) : End m → End n
  | .root v => .root (γ v)
  | .newMinimum y => .newMinimum (φ y)

/-- The other side. -/
def Side.flip : Side → Side
  | .lower => .upper
  | .upper => .lower

/-! ### The search -/

theorem run_general {φ : (m → ℝ) → (n → ℝ)} {γ : ℝ → ℝ} {s : Search n} {s' : Search m} (h : SameFit φ γ s s') {side side' : Side}
    (hb : ∀ a b, side.beyond (γ a) (γ b) ↔ side'.beyond a b) (k : NTol) (ys : List (m → ℝ)) (final : m → ℝ) :
    s.run side k (ys.map φ) (φ final) = ((s'.run side' k ys final).1, (s'.run side' k ys final).2.change φ γ) := by
  classical
  induction ys generalizing k with
  | nil => simp [Search.run, End.change, h.poi]
  | cons y ys ih =>
    have hsw : side.beyond (γ (y s'.poi)) (s.values s.poi) ↔ side'.beyond (y s'.poi) (s'.values s'.poi) := by rw [h.value, hb]
    have hz : s.zeroed (φ y) = s'.zeroed y := by simp [Search.zeroed, h.loss, h.fmin]
    have key : (∀ v, s'.evaluate side' k y = ((s'.evaluate side' k y).1, .rootFound v) →
          s.evaluate side k (φ y) = ((s'.evaluate side' k y).1, .rootFound (γ v))) ∧
        (∀ x, s'.evaluate side' k y = ((s'.evaluate side' k y).1, .newMinimum x) →
          s.evaluate side k (φ y) = ((s'.evaluate side' k y).1, .newMinimum (φ x))) ∧
        (∀ t g, s'.evaluate side' k y = ((s'.evaluate side' k y).1, .go t g) →
          ∃ g', s.evaluate side k (φ y) = ((s'.evaluate side' k y).1, .go t g')) := by
      simp only [Search.evaluate, hsw, hz, h.minTol, h.errordef, h.sigma, h.rtol, h.poi]
      generalize (if side'.beyond (y s'.poi) (s'.values s'.poi) then -s'.zeroed y else s'.zeroed y) = z
      by_cases h1 : ¬ side'.beyond (y s'.poi) (s'.values s'.poi) ∧ z < -s.minTol
      · simp only [if_pos h1]
        exact ⟨by rintro v ⟨⟩, by rintro x hx; simp only [Prod.mk.injEq, true_and, Out.newMinimum.injEq] at hx; rw [hx], by rintro t g ⟨⟩⟩
      · simp only [if_neg h1]
        by_cases h2 : |z - s.errordef * s.sigma ^ 2| < s.rtol
        · simp only [if_pos h2]
          by_cases h3 : 3 < k
          · simp only [if_pos h3]
            exact ⟨by rintro v hv; simp only [Prod.mk.injEq, true_and, Out.rootFound.injEq] at hv; rw [hv], by rintro x ⟨⟩, by rintro t g ⟨⟩⟩
          · simp only [if_neg h3]
            exact ⟨by rintro v ⟨⟩, by rintro x ⟨⟩, by
              rintro t g hg
              simp only [Prod.mk.injEq, true_and, Out.go.injEq] at hg
              exact ⟨_, by rw [hg.1]⟩⟩
        · simp only [if_neg h2]
          exact ⟨by rintro v ⟨⟩, by rintro x ⟨⟩, by
            rintro t g hg
            simp only [Prod.mk.injEq, true_and, Out.go.injEq] at hg
            exact ⟨_, by rw [hg.1]⟩⟩
    rw [List.map_cons, Search.run, Search.run]
    rcases he : s'.evaluate side' k y with ⟨k', o⟩
    rw [he] at key
    cases o with
    | rootFound v => rw [key.1 v rfl]; rfl
    | newMinimum x => rw [key.2.1 x rfl]; rfl
    | go t g =>
      obtain ⟨g', hg'⟩ := key.2.2 t g rfl
      rw [hg']
      exact ih k'

/-- C314, one side: if the parameter of interest is an increasing function of the other one, the search that is shown the corresponding points ends
like the other one: with a root at the corresponding value, or with the corresponding new minimum. -/
theorem search_reparametrised {φ : (m → ℝ) → (n → ℝ)} {γ : ℝ → ℝ} {s : Search n} {s' : Search m} (h : SameFit φ γ s s') (hγ : StrictMono γ)
    (side : Side) (k : NTol) (ys : List (m → ℝ)) (final : m → ℝ) :
    s.run side k (ys.map φ) (φ final) = ((s'.run side k ys final).1, (s'.run side k ys final).2.change φ γ) :=
  run_general h (fun a b => by cases side <;> simp [Side.beyond, hγ.lt_iff_lt]) k ys final

/-- C314: if it is a decreasing function, the lower side of the one is the upper side of the other. -/
theorem search_reversed {φ : (m → ℝ) → (n → ℝ)} {γ : ℝ → ℝ} {s : Search n} {s' : Search m} (h : SameFit φ γ s s') (hγ : StrictAnti γ)
    (side : Side) (k : NTol) (ys : List (m → ℝ)) (final : m → ℝ) :
    s.run side k (ys.map φ) (φ final) = ((s'.run side.flip k ys final).1, (s'.run side.flip k ys final).2.change φ γ) :=
  run_general h (fun a b => by cases side <;> simp [Side.beyond, Side.flip, hγ.lt_iff_gt]) k ys final

/-- C314, both errors: the ends of the interval are the values of the function at the ends of the other interval. -/
theorem errors_reparametrised {φ : (m → ℝ) → (n → ℝ)} {γ : ℝ → ℝ} {s : Search n} {s' : Search m} (h : SameFit φ γ s s') (hγ : StrictMono γ)
    (ls us : List (m → ℝ)) (lf uf : m → ℝ) :
    (∀ l u, s'.errors ls us lf uf = .ok (l, u) → ∃ l0 u0, s.errors (ls.map φ) (us.map φ) (φ lf) (φ uf) = .ok (l0, u0) ∧
      s.values s.poi + l0 = γ (s'.values s'.poi + l) ∧ s.values s.poi + u0 = γ (s'.values s'.poi + u)) ∧
    (∀ y, s'.errors ls us lf uf = .error y → s.errors (ls.map φ) (us.map φ) (φ lf) (φ uf) = .error (φ y)) := by
  unfold Search.errors
  rw [search_reparametrised h hγ]
  rcases h1 : s'.run .lower 999 ls lf with ⟨k1, e1⟩
  cases e1 with
  | newMinimum y =>
    exact ⟨by rintro l u ⟨⟩, by rintro z hz; cases hz; rfl⟩
  | root v1 =>
    simp only [End.change]
    rw [search_reparametrised h hγ]
    rcases h2 : s'.run .upper k1 us uf with ⟨k2, e2⟩
    cases e2 with
    | newMinimum y =>
      exact ⟨by rintro l u ⟨⟩, by rintro z hz; cases hz; rfl⟩
    | root v2 =>
      refine ⟨fun l u hlu => ?_, by rintro y ⟨⟩⟩
      simp only [Except.ok.injEq, Prod.mk.injEq] at hlu
      obtain ⟨rfl, rfl⟩ := hlu
      exact ⟨_, _, rfl, by simp, by simp⟩

/-- C314, another unit of the parameter: the errors are converted like the parameter. -/
theorem errors_other_unit {φ : (m → ℝ) → (n → ℝ)} {a c : ℝ} (ha : 0 < a) {s : Search n} {s' : Search m} (h : SameFit φ (fun t => a * t + c) s s')
    (ls us : List (m → ℝ)) (lf uf : m → ℝ) (l u : ℝ) (he : s'.errors ls us lf uf = .ok (l, u)) :
    s.errors (ls.map φ) (us.map φ) (φ lf) (φ uf) = .ok (a * l, a * u) := by
  have hγ : StrictMono fun t => a * t + c := fun x y hxy => by
    have := mul_lt_mul_of_pos_left hxy ha
    simpa using this
  obtain ⟨l0, u0, h0, hl, hu⟩ := (errors_reparametrised h hγ ls us lf uf).1 l u he
  rw [h0]
  have hv := h.value
  have e1 : l0 = a * l := by linear_combination hl - hv
  have e2 : u0 = a * u := by linear_combination hu - hv
  rw [e1, e2]

/-! ### The start -/

theorem trial_unit {a c : ℝ} (ha : 0 < a) (lower upper : Option ℝ) (v : ℝ) (k : Nat) (step : ℝ) :
    trial (lower.map fun t => a * t + c) (upper.map fun t => a * t + c) (a * v + c) k (a * step) =
      (trial lower upper v k step).map fun t => a * t + c := by
  classical
  induction k generalizing step with
  | zero => rfl
  | succ k ih =>
    have hl : ∀ t, (a * v + c + a * step < a * t + c ↔ v + step < t) ∧ (a * t + c < a * v + c + a * step ↔ t < v + step) := by
      intro t
      have e : a * v + c + a * step = a * (v + step) + c := by ring
      rw [e]
      constructor <;> simp [ha]
    have hc : ((∃ l, lower.map (fun t => a * t + c) = some l ∧ a * v + c + a * step < l) ∨
        (∃ u, upper.map (fun t => a * t + c) = some u ∧ u < a * v + c + a * step)) ↔
        ((∃ l, lower = some l ∧ v + step < l) ∨ ∃ u, upper = some u ∧ u < v + step) := by
      constructor
      · rintro (⟨l, h1, h2⟩ | ⟨u, h1, h2⟩)
        · obtain ⟨t, ht, rfl⟩ := Option.map_eq_some_iff.1 h1
          exact .inl ⟨t, ht, (hl t).1.1 h2⟩
        · obtain ⟨t, ht, rfl⟩ := Option.map_eq_some_iff.1 h1
          exact .inr ⟨t, ht, (hl t).2.1 h2⟩
      · rintro (⟨l, rfl, h2⟩ | ⟨u, rfl, h2⟩)
        · exact .inl ⟨_, rfl, (hl l).1.2 h2⟩
        · exact .inr ⟨_, rfl, (hl u).2.2 h2⟩
    have ih' := ih (step * (4 / 5))
    rw [← mul_assoc] at ih'
    unfold trial
    by_cases h0 : (∃ l, lower = some l ∧ v + step < l) ∨ ∃ u, upper = some u ∧ u < v + step
    · rw [if_pos (hc.2 h0), if_pos h0, ih']
    · rw [if_neg (fun h => h0 (hc.1 h)), if_neg h0]
      simp only [Option.map_some, Option.some.injEq]
      ring

/-- C314, other units of all the parameters: also the points at which the search starts correspond, for corresponding limits and covariances. -/
theorem start_other_units (a c : n → ℝ) (ha : ∀ i, 0 < a i) (s s' : Search n) (hp : s'.poi = s.poi)
    (hv : ∀ i, s.values i = a i * s'.values i + c i) (he : s'.errordef = s.errordef) (hs : s'.sigma = s.sigma)
    (cov cov' : Matrix n n ℝ) (hcov : ∀ i j, cov i j = a i * a j * cov' i j) (lower upper : n → Option ℝ) (side : Side) (j : n) :
    s.start cov (fun i => (lower i).map fun t => a i * t + c i) (fun i => (upper i).map fun t => a i * t + c i) side j =
      (s'.start cov' lower upper side j).map fun t => a j * t + c j := by
  unfold Search.start
  simp only
  rw [hv, ← trial_unit (ha j), hp, he, hs]
  congr 1
  have h1 : 2 * s.errordef / cov s.poi s.poi = 2 * s.errordef / cov' s.poi s.poi / a s.poi ^ 2 := by
    rw [hcov, div_div]
    congr 1
    ring
  rw [h1, Real.sqrt_div' _ (sq_nonneg _), Real.sqrt_sq (ha _).le, hcov]
  have := (ha s.poi).ne'
  field_simp

/-! ### The equations -/

/-- C314, any smooth change of the parameters that keeps the one of interest up to a function of itself: the loss is stationary in the remaining
parameters, as the equations of the search ask for, in the one if and only if it is in the other. -/
theorem stationary_reparametrised [Fintype n] [DecidableEq n] {f : (n → ℝ) → ℝ} {φ : (n → ℝ) → (n → ℝ)} {γ : ℝ → ℝ} {p : n}
    (hp : ∀ y, φ y p = γ (y p)) {y g g' : n → ℝ} {J : Matrix n n ℝ} (hJ : HasFDerivAt φ (mulL J) y) (hdet : J.det ≠ 0)
    (hg : HasFDerivAt f (dotL g) (φ y)) (hg' : HasFDerivAt (fun y => f (φ y)) (dotL g') y) :
    (∀ i, i ≠ p → g' i = 0) ↔ ∀ i, i ≠ p → g i = 0 := by
  have hrow : ∀ i, i ≠ p → J p i = 0 := by
    intro i hi
    have hline : HasDerivAt (fun t : ℝ => y + t • (Pi.single i 1 : n → ℝ)) (Pi.single i 1) 0 := by
      simpa using ((hasDerivAt_id (0 : ℝ)).smul_const (Pi.single i 1 : n → ℝ)).const_add y
    have hJ0 : HasFDerivAt φ (mulL J) ((fun t : ℝ => y + t • (Pi.single i 1 : n → ℝ)) 0) := by simpa using hJ
    have h1 := hJ0.comp_hasDerivAt (0 : ℝ) hline
    have h2 := (hasDerivAt_pi.1 h1) p
    have h3 : (fun t : ℝ => φ (y + t • (Pi.single i 1 : n → ℝ)) p) = fun _ => φ y p := by
      funext t
      rw [hp, hp]
      simp [Pi.single_apply, Ne.symm hi]
    have h4 : HasDerivAt (fun t : ℝ => φ (y + t • (Pi.single i 1 : n → ℝ)) p) 0 0 := by
      rw [h3]; exact hasDerivAt_const _ _
    have h5 := h2.unique h4
    simpa using h5
  have hchain : g' = Jᵀ *ᵥ g := by
    apply dotL_inj
    have e : dotL (Jᵀ *ᵥ g) = (dotL g).comp (mulL J) := by
      ext v
      simp [mulVec_transpose, dotProduct_mulVec]
    rw [e]
    exact hg'.unique (hg.comp y hJ)
  have hu : IsUnit J.det := isUnit_iff_ne_zero.2 hdet
  have hpp : J p p ≠ 0 := by
    intro h0
    apply hdet
    exact det_eq_zero_of_row_eq_zero p fun i => by
      by_cases hi : i = p
      · rw [hi, h0]
      · exact hrow i hi
  have hinv : ∀ i, i ≠ p → J⁻¹ p i = 0 := by
    intro i hi
    have h1 : (J * J⁻¹) p i = 0 := by rw [mul_nonsing_inv _ hu, one_apply_ne (Ne.symm hi)]
    rw [mul_apply, Finset.sum_eq_single p (fun k _ hk => by rw [hrow k hk, zero_mul]) (by simp)] at h1
    exact (mul_eq_zero.1 h1).resolve_left hpp
  have hback : g = J⁻¹ᵀ *ᵥ g' := by
    rw [hchain, mulVec_mulVec, ← transpose_mul, mul_nonsing_inv _ hu, transpose_one, one_mulVec]
  have hzero : ∀ (M : Matrix n n ℝ) (v : n → ℝ), (∀ i, i ≠ p → M p i = 0) → (∀ i, i ≠ p → v i = 0) → ∀ i, i ≠ p → (Mᵀ *ᵥ v) i = 0 := by
    intro M v hM hv i hi
    rw [mulVec, dotProduct]
    refine Finset.sum_eq_zero fun k _ => ?_
    by_cases hk : k = p
    · subst hk
      rw [transpose_apply, hM i hi, zero_mul]
    · rw [hv k hk, mul_zero]
  constructor
  · intro h
    rw [hback]
    exact hzero _ _ hinv h
  · intro h
    rw [hchain]
    exact hzero _ _ hrow h

/-! ### An example -/

/-- A parabola with the minimum at 3. -/
noncomputable def exSearch : Search (Fin 1) :=
  ⟨fun x => some ((x 0 - 3) ^ 2 / 2), fun x i => x i - 3, 0, 1 / 2, 1, 1 / 1000, 1 / 1000, 0, fun _ => 3⟩

/-- The same, in thousandths. -/
noncomputable def exSearchMilli : Search (Fin 1) :=
  ⟨fun y => some ((y 0 / 1000 - 3) ^ 2 / 2), fun y i => (y i / 1000 - 3) / 1000, 0, 1 / 2, 1, 1 / 1000, 1 / 1000, 0, fun _ => 3000⟩

example : SameFit (fun y : Fin 1 → ℝ => fun i => 1 / 1000 * y i + 0) (fun t => 1 / 1000 * t + 0) exSearch exSearchMilli :=
  ⟨fun y => by simp only [exSearch, exSearchMilli]; congr 3; ring, fun _ => rfl, by norm_num [exSearch, exSearchMilli], rfl, rfl, rfl, rfl, rfl⟩

end Zfit.Unc
