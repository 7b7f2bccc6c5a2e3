import Verif.Unc.Model
import Mathlib.LinearAlgebra.Matrix.ToLinearEquiv
import Mathlib.Analysis.SpecialFunctions.Log.Deriv
import Mathlib.Tactic.Linarith
import Mathlib.Tactic.FieldSimp
import Mathlib.Tactic.NormNum
import Mathlib.Tactic.Positivity

/-!
# Properties of the uncertainties of a fit result

* C125: `hesse_error_nll_partial`, `hesse_error_minuit`; `hesse_error_chi2_violated`
* C126: `covariance_at_minimum_partial`; `hesse_at_current_values_violated`
* C127: `covariance_restores_partial`; `covariance_moves_parameters_violated`
* C128: `asymptotic_covariance_partial`, `asymptotic_symmetric`, `asymptotic_scale_invariant`,
  `asymptotic_unit_weights`; `asymptotic_yield_violated`, `asymptotic_constraint_violated`,
  
* C129: `effsize_partial`; `effsize_violated`, `effsize_mixed_violated`
-/

namespace Zfit.Unc

open Zfit Matrix

variable {n : Type} [Fintype n] [DecidableEq n]

/-! ### Specification -/

/-- `m` is the smallest value of `f` with the parameter `i` at `v`. -/
def IsProfile (f : (n → ℝ) → ℝ) (i : n) (v m : ℝ) : Prop := (∃ x, x i = v ∧ f x = m) ∧ ∀ x, x i = v → m ≤ f x

/-- `e` is the error of `sigma` standard deviations of the parameter `i`: at a distance of `e` from the minimum, on both
sides, the loss has risen by `errordef * sigma²` if all other parameters are adjusted. -/
def IsError (f : (n → ℝ) → ℝ) (x0 : n → ℝ) (errordef sigma : ℝ) (i : n) (e : ℝ) : Prop :=
  IsProfile f i (x0 i + e) (f x0 + errordef * sigma ^ 2) ∧ IsProfile f i (x0 i - e) (f x0 + errordef * sigma ^ 2)

/-- A parabola with the minimum `f0` at `x0` and the second derivatives `H`. -/
noncomputable def parabola (f0 : ℝ) (x0 : n → ℝ) (H : Matrix n n ℝ) (x : n → ℝ) : ℝ :=
  f0 + (x - x0) ⬝ᵥ (H *ᵥ (x - x0)) / 2

/-- Symmetric and positive definite. -/
def Definite (H : Matrix n n ℝ) : Prop := Hᵀ = H ∧ ∀ v, v ≠ 0 → 0 < v ⬝ᵥ (H *ᵥ v)

/-! ### Parabolas -/

omit [DecidableEq n] in
theorem profile_unique {f : (n → ℝ) → ℝ} {i : n} {v a b : ℝ} (ha : IsProfile f i v a) (hb : IsProfile f i v b) : a = b := by
  obtain ⟨⟨x, hx, rfl⟩, h1⟩ := ha
  obtain ⟨⟨y, hy, rfl⟩, h2⟩ := hb
  exact le_antisymm (h1 y hy) (h2 x hx)

theorem definite_inv {H : Matrix n n ℝ} (h : Definite H) : H * H⁻¹ = 1 ∧ H⁻¹ * H = 1 := by
  have hdet : H.det ≠ 0 := by
    intro hd
    obtain ⟨v, hv, h0⟩ := Matrix.exists_mulVec_eq_zero_iff.2 hd
    have := h.2 v hv
    rw [h0, dotProduct_zero] at this
    exact lt_irrefl _ this
  have hu : IsUnit H.det := isUnit_iff_ne_zero.2 hdet
  exact ⟨Matrix.mul_nonsing_inv H hu, Matrix.nonsing_inv_mul H hu⟩

private theorem column {H : Matrix n n ℝ} (h : Definite H) (i : n) : H *ᵥ (H⁻¹ *ᵥ Pi.single i 1) = Pi.single i 1 := by
  rw [Matrix.mulVec_mulVec, (definite_inv h).1, Matrix.one_mulVec]

private theorem column_apply (V : Matrix n n ℝ) (i j : n) : (V *ᵥ Pi.single i 1) j = V j i := by
  rw [Matrix.mulVec_single_one]
  rfl

theorem inv_diag_pos {H : Matrix n n ℝ} (h : Definite H) (i : n) : 0 < H⁻¹ i i := by
  have hne : H⁻¹ *ᵥ Pi.single i 1 ≠ 0 := by
    intro h0
    have := column h i
    rw [h0, Matrix.mulVec_zero] at this
    have := congrFun this i
    simp at this
  have := h.2 _ hne
  rw [column h i, dotProduct_single, mul_one, column_apply] at this
  exact this

omit [DecidableEq n] in
private theorem form_symm {H : Matrix n n ℝ} (h : Hᵀ = H) (a b : n → ℝ) : a ⬝ᵥ (H *ᵥ b) = b ⬝ᵥ (H *ᵥ a) := by
  rw [Matrix.dotProduct_mulVec, ← Matrix.mulVec_transpose, h, dotProduct_comm]

omit [DecidableEq n] in
private theorem form_add {H : Matrix n n ℝ} (h : Hᵀ = H) (a b : n → ℝ) :
    (a + b) ⬝ᵥ (H *ᵥ (a + b)) = a ⬝ᵥ (H *ᵥ a) + 2 * (b ⬝ᵥ (H *ᵥ a)) + b ⬝ᵥ (H *ᵥ b) := by
  rw [Matrix.mulVec_add, add_dotProduct, dotProduct_add, dotProduct_add, form_symm h a b]
  ring

omit [DecidableEq n] in
private theorem form_nonneg {H : Matrix n n ℝ} (h : Definite H) (a : n → ℝ) : 0 ≤ a ⬝ᵥ (H *ᵥ a) := by
  by_cases ha : a = 0
  · rw [ha, zero_dotProduct]
  · exact (h.2 a ha).le

/-- The direction in which the other parameters are adjusted. -/
private noncomputable def along (H : Matrix n n ℝ) (i : n) (δ : ℝ) : n → ℝ := (δ / H⁻¹ i i) • (H⁻¹ *ᵥ Pi.single i 1)

private theorem along_at {H : Matrix n n ℝ} (h : Definite H) (i : n) (δ : ℝ) : along H i δ i = δ := by
  unfold along
  rw [Pi.smul_apply, column_apply, smul_eq_mul]
  exact div_mul_cancel₀ _ (inv_diag_pos h i).ne'

private theorem along_image {H : Matrix n n ℝ} (h : Definite H) (i : n) (δ : ℝ) :
    H *ᵥ along H i δ = (δ / H⁻¹ i i) • Pi.single i 1 := by
  unfold along
  rw [Matrix.mulVec_smul, column h]

private theorem along_form {H : Matrix n n ℝ} (h : Definite H) (i : n) (δ : ℝ) (b : n → ℝ) :
    b ⬝ᵥ (H *ᵥ along H i δ) = b i * (δ / H⁻¹ i i) := by
  rw [along_image h, dotProduct_smul, dotProduct_single, mul_one, smul_eq_mul, mul_comm]

/-- The profile of a parabola. -/
theorem parabola_profile {H : Matrix n n ℝ} (h : Definite H) (f0 : ℝ) (x0 : n → ℝ) (i : n) (δ : ℝ) :
    IsProfile (parabola f0 x0 H) i (x0 i + δ) (f0 + δ ^ 2 / H⁻¹ i i / 2) := by
  have hself : along H i δ ⬝ᵥ (H *ᵥ along H i δ) = δ ^ 2 / H⁻¹ i i := by
    rw [along_form h, along_at h]
    ring
  constructor
  · refine ⟨x0 + along H i δ, ?_, ?_⟩
    · rw [Pi.add_apply, along_at h]
    · unfold parabola
      rw [add_sub_cancel_left, hself]
  · intro x hx
    unfold parabola
    have hd : x - x0 = along H i δ + (x - x0 - along H i δ) := by abel
    have hz : (x - x0 - along H i δ) i = 0 := by
      rw [Pi.sub_apply, Pi.sub_apply, along_at h, hx]
      ring
    rw [hd, form_add h.1, hself, along_form h, hz]
    have := form_nonneg h (x - x0 - along H i δ)
    linarith

omit [DecidableEq n] in
theorem parabola_min (f0 : ℝ) (x0 : n → ℝ) (H : Matrix n n ℝ) : parabola f0 x0 H x0 = f0 := by
  unfold parabola
  simp

theorem parabola_error {H : Matrix n n ℝ} (h : Definite H) (f0 : ℝ) (x0 : n → ℝ) (i : n) (errordef sigma e : ℝ)
    (he : e ^ 2 = 2 * errordef * H⁻¹ i i * sigma ^ 2) : IsError (parabola f0 x0 H) x0 errordef sigma i e := by
  have hv := inv_diag_pos h i
  have key : errordef * sigma ^ 2 = e ^ 2 / H⁻¹ i i / 2 := by
    rw [he]
    field_simp
  unfold IsError
  rw [parabola_min, key]
  refine ⟨parabola_profile h f0 x0 i e, ?_⟩
  have := parabola_profile h f0 x0 i (-e)
  rw [neg_sq] at this
  exact this

/-! ### C125: errors from second derivatives -/

/-- C125, the proved part: for a loss with `errordef` 1/2 (a negative log-likelihood) that is a parabola, the error of
`hesse` is the error, for every number of standard deviations and every parameter. Missing from the full claim: the cases of
`hesse_error_chi2_violated`. -/
theorem hesse_error_nll_partial {H : Matrix n n ℝ} (h : Definite H) (f0 : ℝ) (r : Result n)
    (hH : ∀ x, r.obj.hessian x = H) (hd : r.obj.errordef = 1 / 2) (cur : n → ℝ) (i : n) (sigma : ℝ) :
    ∃ c, (r.method .np cur).2 = some c ∧
      IsError (parabola f0 r.values H) r.values r.obj.errordef sigma i (hesseError c i sigma) := by
  refine ⟨H⁻¹, by simp only [Result.method, hH], parabola_error h f0 r.values i _ _ _ ?_⟩
  unfold hesseError
  rw [mul_pow, Real.sq_sqrt (inv_diag_pos h i).le, hd]
  ring

/-- C125: the same for `minuit_hesse`, for every `errordef`. -/
theorem hesse_error_minuit {H : Matrix n n ℝ} (h : Definite H) (f0 : ℝ) (r : Result n) (hH : ∀ x, r.obj.hessian x = H)
    (hd : 0 ≤ r.obj.errordef) (cur : n → ℝ) (i : n) (sigma : ℝ) :
    ∃ c, (r.method .minuit cur).2 = some c ∧
      IsError (parabola f0 r.values H) r.values r.obj.errordef sigma i (hesseError c i sigma) := by
  refine ⟨(2 * r.obj.errordef) • H⁻¹, by simp only [Result.method, hH], parabola_error h f0 r.values i _ _ _ ?_⟩
  unfold hesseError
  rw [mul_pow, Matrix.smul_apply, smul_eq_mul,
    Real.sq_sqrt (mul_nonneg (by linarith) (inv_diag_pos h i).le)]

/-- C125 fails for the default method with a chi2 (`errordef` 1): for every parabola the error is too small, by a factor
of √2. -/
theorem hesse_error_chi2_violated {H : Matrix n n ℝ} (h : Definite H) (f0 : ℝ) (r : Result n)
    (hH : ∀ x, r.obj.hessian x = H) (hd : r.obj.errordef = 1) (cur : n → ℝ) (i : n) (sigma : ℝ) (hs : 0 < sigma) :
    ∃ c, (r.method .np cur).2 = some c ∧
      ¬ IsError (parabola f0 r.values H) r.values r.obj.errordef sigma i (hesseError c i sigma) ∧
      IsError (parabola f0 r.values H) r.values r.obj.errordef sigma i (Real.sqrt 2 * hesseError c i sigma) := by
  have hv := inv_diag_pos h i
  have hsq : hesseError H⁻¹ i sigma ^ 2 = H⁻¹ i i * sigma ^ 2 := by
    unfold hesseError
    rw [mul_pow, Real.sq_sqrt hv.le]
  refine ⟨H⁻¹, by simp only [Result.method, hH], ?_, parabola_error h f0 r.values i _ _ _ ?_⟩
  · rintro ⟨h1, -⟩
    have h2 := parabola_profile h f0 r.values i (hesseError H⁻¹ i sigma)
    have h3 := profile_unique h1 h2
    rw [parabola_min, hd, hsq] at h3
    have h4 : H⁻¹ i i * sigma ^ 2 / H⁻¹ i i = sigma ^ 2 := by field_simp
    rw [h4] at h3
    have := pow_pos hs 2
    linarith
  · rw [mul_pow, Real.sq_sqrt (by norm_num), hsq, hd]
    ring

/-- The hypotheses are satisfiable: one parameter with second derivative 4. -/
example : Definite (Matrix.of fun _ _ : Unit => (4 : ℝ)) := by
  refine ⟨rfl, fun v hv => ?_⟩
  have h0 : v () ≠ 0 := fun h => hv (by funext u; cases u; exact h)
  have : 0 < v () ^ 2 := by positivity
  simp only [dotProduct, Matrix.mulVec, Matrix.of_apply, Finset.univ_unique, Finset.sum_singleton, PUnit.default_eq_unit]
  nlinarith

/-! ### C126: where the second derivatives are taken -/

/-- C126, the proved part: `covariance` is the one at the fitted values if the parameters have these values, whatever the
method; that of Minuit in any case. Missing from the full claim: the cases of `hesse_at_current_values_violated`. -/
theorem covariance_at_minimum_partial (r : Result n) (params : Option (List n)) :
    (r.covariance .np params r.values).2 = some (r.obj.hessian r.values)⁻¹ ∧
    (∀ cur, (r.covariance .minuit params cur).2 = some ((2 * r.obj.errordef) • (r.obj.hessian r.values)⁻¹)) ∧
    (∀ cur, (r.covariance .approx params cur).2 = r.approxInv) := ⟨rfl, fun _ => rfl, fun _ => rfl⟩

/-- The loss `x² / 2 + x⁴ / 12` with its minimum at 0. -/
noncomputable def exResult : Result Unit :=
  ⟨⟨fun x => Matrix.of fun _ _ => 1 + x () ^ 2, 1 / 2⟩, fun _ => 0, none, fun _ => 0⟩

private theorem inv_unit (a : ℝ) : (Matrix.of fun _ _ : Unit => a)⁻¹ () () = a⁻¹ := by
  rw [Matrix.inv_def, Matrix.adjugate_subsingleton, Matrix.smul_apply]
  simp [Matrix.det_unique]

/-- C126 fails: for the default method the error of a result depends on the values the parameters have when `hesse` is
called.  Here the variance is 1, but 1/2 if the parameter was set to 1 meanwhile. -/
theorem hesse_at_current_values_violated :
    ∃ c c', (exResult.covariance .np none (fun _ => 0)).2 = some c ∧ (exResult.covariance .np none (fun _ => 1)).2 = some c' ∧
      c () () = 1 ∧ c' () () = 1 / 2 := by
  refine ⟨_, _, rfl, rfl, ?_, ?_⟩
  · show (Matrix.of fun _ _ : Unit => 1 + (0 : ℝ) ^ 2)⁻¹ () () = 1
    rw [inv_unit]
    norm_num
  · show (Matrix.of fun _ _ : Unit => 1 + (1 : ℝ) ^ 2)⁻¹ () () = 1 / 2
    rw [inv_unit]
    norm_num

/-! ### C127: the values of the parameters afterwards -/

omit [Fintype n] in
private theorem reset_all (old after : n → ℝ) : resetParams none old after = old := rfl

/-- C127, the proved part: the parameters have their values afterwards if all are asked for, and with the methods
other than that of Minuit; the ones asked for always. Missing from the full claim: the cases of `covariance_moves_parameters_violated`. -/
theorem covariance_restores_partial (r : Result n) (cur : n → ℝ) :
    (∀ m, (r.covariance m none cur).1 = cur) ∧
    (∀ params, (r.covariance .np params cur).1 = cur ∧ (r.covariance .approx params cur).1 = cur) ∧
    (∀ m l, ∀ i ∈ l, (r.covariance m (some l) cur).1 i = cur i) := by
  refine ⟨fun m => rfl, fun params => ?_, fun m l i hi => ?_⟩
  · cases params with
    | none => exact ⟨rfl, rfl⟩
    | some l =>
      constructor <;>
      · funext i
        simp [Result.covariance, resetParams, Result.method]
  · simp only [Result.covariance, resetParams]
    rw [if_pos hi]

/-- C127 fails: `covariance(params)` and `hesse(params)` with the method of Minuit leave every parameter that is not in
`params` at the value of the last evaluation. -/
theorem covariance_moves_parameters_violated (r : Result n) (cur : n → ℝ) (l : List n) (i : n) (hi : i ∉ l) :
    (r.covariance .minuit (some l) cur).1 i = r.minuitLast i := by
  simp only [Result.covariance, resetParams]
  rw [if_neg hi]
  rfl

/-! ### C128: weighted data -/

/-- The sum over all events, with the squares of the weights, of the products of the derivatives. -/
noncomputable def squaredWeights (events : List (ℝ × (n → ℝ))) (i j : n) : ℝ :=
  (events.map (fun e => e.1 ^ 2 * (e.2 i * e.2 j))).sum

/-- The events of a dataset with their weights, which are 1 without weights. -/
def Part.events (p : Part n) : List (ℝ × (n → ℝ)) :=
  match p.weights with
  | none => p.logGrads.map (fun g => (1, g))
  | some w => w.zip p.logGrads

omit [Fintype n] [DecidableEq n] in
private theorem columns_events (p : Part n) (hy : p.yld = none) (i j : n) :
    (p.columns.map (fun c => c i * c j)).sum = squaredWeights p.events i j := by
  unfold Part.columns Part.events squaredWeights
  rw [hy]
  simp only [List.append_nil]
  cases p.weights with
  | none =>
    simp only [List.map_map, Function.comp_def, one_pow, one_mul]
  | some w =>
    simp only
    generalize p.logGrads = gs
    induction gs generalizing w with
    | nil => simp
    | cons g gs ih =>
      cases w with
      | nil => simp
      | cons a w =>
        simp only [List.zipWith_cons_cons, List.map_cons, List.sum_cons, List.zip_cons_cons]
        rw [ih w]
        ring

omit [Fintype n] [DecidableEq n] in
private theorem outer_events (parts : List (Part n)) (hy : ∀ p ∈ parts, p.yld = none) :
    outer (parts.flatMap Part.columns ++ []) = Matrix.of (squaredWeights (parts.flatMap Part.events)) := by
  ext i j
  simp only [outer, Matrix.of_apply, List.append_nil]
  induction parts with
  | nil => simp [squaredWeights]
  | cons p ps ih =>
    rw [List.flatMap_cons, List.flatMap_cons, List.map_append, List.sum_append,
      columns_events p (hy p List.mem_cons_self), ih (fun q hq => hy q (List.mem_cons_of_mem _ hq))]
    unfold squaredWeights
    rw [List.map_append, List.sum_append]

/-- C128, the proved part: for weighted data, without yields, constraints and fit ranges, the covariance is the one of the
literature, `H⁻¹ (Σ w² ∇log p ∇log pᵀ) H⁻¹`. Missing from the full claim: the cases of `asymptotic_yield_violated`,
`asymptotic_constraint_violated`. -/
theorem asymptotic_covariance_partial (hinv : Matrix n n ℝ) (parts : List (Part n)) (hy : ∀ p ∈ parts, p.yld = none)
    (hw : ∃ p ∈ parts, p.weights ≠ none) :
    weightedCovariance (some hinv) .asymptotic parts [] =
      .ok (some (hinv * Matrix.of (squaredWeights (parts.flatMap Part.events)) * hinv)) := by
  unfold weightedCovariance
  rw [if_pos]
  · simp only [covarianceWithWeights]
    rw [outer_events parts hy, Matrix.mul_assoc]
  · refine ⟨by decide, ?_⟩
    rw [List.any_eq_true]
    obtain ⟨p, hp, hne⟩ := hw
    exact ⟨p, hp, Option.isSome_iff_ne_none.2 hne⟩

omit [Fintype n] [DecidableEq n] in
private theorem outer_symm (cols : List (n → ℝ)) : (outer cols)ᵀ = outer cols := by
  ext i j
  simp only [outer, Matrix.transpose_apply, Matrix.of_apply]
  congr 1
  apply List.map_congr_left
  intro c _
  ring

omit [DecidableEq n] in
private theorem outer_form (cols : List (n → ℝ)) (v : n → ℝ) : 0 ≤ v ⬝ᵥ (outer cols *ᵥ v) := by
  have : v ⬝ᵥ (outer cols *ᵥ v) = (cols.map (fun c => (c ⬝ᵥ v) ^ 2)).sum := by
    induction cols with
    | nil =>
      have : outer ([] : List (n → ℝ)) = 0 := by ext i j; simp [outer]
      rw [this]
      simp
    | cons c cs ih =>
      have h1 : outer (c :: cs) = Matrix.vecMulVec c c + outer cs := by
        ext i j
        simp [outer, Matrix.vecMulVec_apply]
      rw [h1, Matrix.add_mulVec, dotProduct_add, ih, List.map_cons, List.sum_cons]
      congr 1
      rw [Matrix.vecMulVec_mulVec, dotProduct_smul, dotProduct_comm v c]
      simp [sq]
  rw [this]
  apply List.sum_nonneg
  intro x hx
  obtain ⟨c, -, rfl⟩ := List.mem_map.1 hx
  positivity

/-- C128: the corrected covariance is symmetric and positive semi-definite, with yields and constraints as well. -/
theorem asymptotic_symmetric (hinv : Matrix n n ℝ) (hs : hinvᵀ = hinv) (parts : List (Part n)) (constraints : List (n → ℝ)) :
    ∃ c, covarianceWithWeights (some hinv) .asymptotic parts constraints = .ok (some c) ∧ cᵀ = c ∧ ∀ v, 0 ≤ v ⬝ᵥ (c *ᵥ v) := by
  refine ⟨_, rfl, ?_, fun v => ?_⟩
  · rw [Matrix.transpose_mul, Matrix.transpose_mul, hs, outer_symm, Matrix.mul_assoc]
  · rw [← Matrix.mulVec_mulVec, ← Matrix.mulVec_mulVec, Matrix.dotProduct_mulVec, ← Matrix.mulVec_transpose, hs]
    exact outer_form _ _

/-- All weights multiplied by a number. -/
def Part.scale (a : ℝ) (p : Part n) : Part n := { p with weights := p.weights.map (fun w => w.map (a * ·)) }

omit [Fintype n] [DecidableEq n] in
private theorem scale_events (a : ℝ) (p : Part n) (hw : p.weights ≠ none) :
    (p.scale a).events = p.events.map (fun e => (a * e.1, e.2)) := by
  unfold Part.scale Part.events
  cases h : p.weights with
  | none => exact absurd h hw
  | some w =>
    simp only [Option.map_some]
    rw [List.zip_map_left]
    rfl

/-- C128: multiplying all weights with a number, which multiplies the second derivatives of the loss with it, does not
change the corrected covariance. -/
theorem asymptotic_scale_invariant (hinv : Matrix n n ℝ) (parts : List (Part n)) (hne : parts ≠ [])
    (hy : ∀ p ∈ parts, p.yld = none) (hw : ∀ p ∈ parts, p.weights ≠ none) (a : ℝ) (ha : a ≠ 0) :
    weightedCovariance (some (a⁻¹ • hinv)) .asymptotic (parts.map (Part.scale a)) [] =
      weightedCovariance (some hinv) .asymptotic parts [] := by
  obtain ⟨p0, ps, rfl⟩ := List.exists_cons_of_ne_nil hne
  rw [asymptotic_covariance_partial hinv _ hy ⟨p0, List.mem_cons_self, hw p0 List.mem_cons_self⟩,
    asymptotic_covariance_partial (a⁻¹ • hinv) ((p0 :: ps).map (Part.scale a)) (fun p hp => by
      obtain ⟨q, hq, rfl⟩ := List.mem_map.1 hp
      exact hy q hq) ⟨p0.scale a, by simp, by
        have := hw p0 List.mem_cons_self
        unfold Part.scale
        simpa using this⟩]
  have hs : Matrix.of (squaredWeights (((p0 :: ps).map (Part.scale a)).flatMap Part.events))
      = (a ^ 2) • Matrix.of (squaredWeights ((p0 :: ps).flatMap Part.events)) := by
    generalize (p0 :: ps) = parts at hw
    ext i j
    simp only [Matrix.of_apply, Matrix.smul_apply, smul_eq_mul]
    induction parts with
    | nil => simp [squaredWeights]
    | cons p ps ih =>
      rw [List.map_cons, List.flatMap_cons, List.flatMap_cons, scale_events a p (hw p List.mem_cons_self)]
      unfold squaredWeights at ih ⊢
      rw [List.map_append, List.map_append, List.sum_append, List.sum_append,
        ih (fun q hq => hw q (List.mem_cons_of_mem _ hq)), mul_add, List.map_map]
      congr 1
      rw [← List.sum_map_mul_left]
      congr 1
      apply List.map_congr_left
      intro e _
      simp only [Function.comp_apply]
      ring
  rw [hs]
  simp only [Matrix.smul_mul, Matrix.mul_smul, smul_smul]
  have : a⁻¹ * (a ^ 2 * a⁻¹) = 1 := by field_simp
  rw [this, one_smul]

/-- C128: if all weights are 1 and the mean of the products of the derivatives agrees with the second derivatives (as it
does for many events of the fitted distribution), the correction changes nothing. -/
theorem asymptotic_unit_weights (H : Matrix n n ℝ) (h : Definite H) (parts : List (Part n)) (hy : ∀ p ∈ parts, p.yld = none)
    (hw : ∃ p ∈ parts, p.weights ≠ none)
    (hinf : ∀ i j, squaredWeights (parts.flatMap Part.events) i j = H i j) :
    weightedCovariance (some H⁻¹) .asymptotic parts [] = .ok (some H⁻¹) := by
  rw [asymptotic_covariance_partial _ _ hy hw]
  have : Matrix.of (squaredWeights (parts.flatMap Part.events)) = H := by
    ext i j
    rw [Matrix.of_apply, hinf]
  rw [this, (definite_inv h).2, Matrix.one_mul]

example : ∃ p : Part Unit, p.yld = none ∧ p.weights ≠ none ∧
    ∀ i j, squaredWeights p.events i j = (Matrix.of fun _ _ : Unit => (5 : ℝ)) i j :=
  ⟨⟨[fun _ => 1, fun _ => -2], some [1, 1], 2, none⟩, rfl, by simp, by
    intro i j
    simp [squaredWeights, Part.events]
    norm_num⟩

omit [Fintype n] [DecidableEq n] in
/-- `yieldGrad` is the derivative of `log_poisson_loss(samplesize, log(yield))` along a yield that depends on a
parameter. -/
theorem yieldGrad_correct (samplesize : ℝ) (y : ℝ → ℝ) (g t c : ℝ) (hy : HasDerivAt y g t) (h0 : 0 < y t) (i : n) :
    HasDerivAt (fun t => Real.exp (Real.log (y t)) - Real.log (y t) * samplesize + c)
      (yieldGrad samplesize (y t) (fun _ : n => g) i) t := by
  have h1 : HasDerivAt (fun t => Real.log (y t)) (g / y t) t := hy.log h0.ne'
  have h2 := ((h1.exp).sub (h1.mul_const samplesize)).add_const c
  refine h2.congr_deriv ?_
  rw [Real.exp_log h0]
  unfold yieldGrad
  field_simp

/-- C128 fails for extended likelihoods: with the yield of a model as the only parameter, the corrected variance of the
fitted yield (the sum of the weights) is 0, whatever the weights are; it should be the sum of the squared weights. -/
theorem asymptotic_yield_violated (weights : List ℝ) (hs : 0 < weights.sum) (hw : 0 < (weights.map (· ^ 2)).sum) :
    let fitted := weights.sum
    let part : Part Unit := ⟨weights.map (fun _ _ => 0), some weights, weights.sum, some (fitted, fun _ => 1)⟩
    let hinv : Matrix Unit Unit ℝ := Matrix.of fun _ _ => fitted ^ 2 / weights.sum
    ∃ c, weightedCovariance (some hinv) .asymptotic [part] [] = .ok (some c) ∧ c () () = 0 ∧
      c () () ≠ (weights.map (· ^ 2)).sum := by
  intro fitted part hinv
  have hcov : weightedCovariance (some hinv) .asymptotic [part] [] = .ok (some (hinv * (outer part.columns * hinv))) := by
    simp [weightedCovariance, covarianceWithWeights, part]
  have hz : outer part.columns = 0 := by
    ext i j
    simp only [outer, Matrix.of_apply, Matrix.zero_apply]
    have : ∀ c ∈ part.columns, c i = 0 := by
      intro c hc
      unfold Part.columns at hc
      rw [List.mem_append] at hc
      rcases hc with hc | hc
      · simp only [part] at hc
        obtain ⟨k, hk, rfl⟩ := List.mem_iff_getElem.1 hc
        simp
      · simp only [part, List.mem_singleton] at hc
        rw [hc]
        unfold yieldGrad
        rw [div_self hs.ne']
        simp
    apply List.sum_eq_zero
    intro x hx
    obtain ⟨c, hc, rfl⟩ := List.mem_map.1 hx
    rw [this c hc, zero_mul]
  refine ⟨_, hcov, ?_, ?_⟩ <;> rw [hz] <;> simp
  simpa using hw.ne

/-- C128 fails for constraints: a parameter that only has a constraint `(x - obs)² / (2 width²)` gets the variance 0
instead of `width²`, if some data are weighted. -/
theorem asymptotic_constraint_violated (obs width : ℝ) (hw : 0 < width) :
    let fitted := obs
    let part : Part Unit := ⟨[fun _ => 0], some [2], 2, none⟩
    let hinv : Matrix Unit Unit ℝ := Matrix.of fun _ _ => width ^ 2
    ∃ c, weightedCovariance (some hinv) .asymptotic [part] [fun _ => (fitted - obs) / width ^ 2] = .ok (some c) ∧
      c () () = 0 ∧ c () () ≠ width ^ 2 := by
  intro fitted part hinv
  have hcov : weightedCovariance (some hinv) .asymptotic [part] [fun _ => (fitted - obs) / width ^ 2]
      = .ok (some (hinv * (outer (part.columns ++ [fun _ => (fitted - obs) / width ^ 2]) * hinv))) := by
    simp [weightedCovariance, covarianceWithWeights, part]
  have hz : outer (part.columns ++ [fun _ => (fitted - obs) / width ^ 2]) = 0 := by
    ext i j
    simp [outer, Part.columns, part, fitted]
  refine ⟨_, hcov, ?_, ?_⟩ <;> rw [hz] <;> simp
  exact fun h => (pow_pos hw 2).ne h

/-! ### C129: the effective sample size -/

/-- The documented correction: the covariance is multiplied by `Σ w² / Σ w`. -/
noncomputable def effFactor (parts : List (Part n)) : ℝ :=
  (parts.flatMap (fun p => (p.events.map (fun e => e.1 ^ 2)))).sum / (parts.flatMap (fun p => p.events.map (·.1))).sum

/-- C129, the proved part: the documented covariance is returned if the factor is 1 and all datasets have weights. Missing from the full
claim: the cases of `effsize_violated`, `effsize_mixed_violated`. -/
theorem effsize_partial (hinv : Matrix n n ℝ) (parts : List (Part n)) (hne : parts ≠ []) (constraints : List (n → ℝ))
    (hw : ∀ p ∈ parts, p.weights ≠ none) (hf : effFactor parts = 1) :
    weightedCovariance (some hinv) .effsize parts constraints = .ok (some (effFactor parts • hinv)) := by
  rw [hf, one_smul]
  obtain ⟨p0, ps, rfl⟩ := List.exists_cons_of_ne_nil hne
  unfold weightedCovariance
  rw [if_pos ⟨by decide, by
    rw [List.any_eq_true]
    exact ⟨p0, List.mem_cons_self, Option.isSome_iff_ne_none.2 (hw p0 List.mem_cons_self)⟩⟩]
  simp only [covarianceWithWeights]
  rw [if_neg]
  rw [List.any_eq_true]
  rintro ⟨p, hp, h⟩
  exact hw p hp (Option.isNone_iff_eq_none.1 h)

/-- C129 fails: the factor is computed and not used, so the covariance is that without a correction; for weights whose
factor is not 1 the documented one is not returned. -/
theorem effsize_violated (hinv : Matrix n n ℝ) (h0 : hinv ≠ 0) (parts : List (Part n)) (hne : parts ≠ [])
    (constraints : List (n → ℝ)) (hw : ∀ p ∈ parts, p.weights ≠ none) (hf : effFactor parts ≠ 1) :
    weightedCovariance (some hinv) .effsize parts constraints = weightedCovariance (some hinv) .off parts constraints ∧
    weightedCovariance (some hinv) .effsize parts constraints ≠ .ok (some (effFactor parts • hinv)) := by
  have hval : weightedCovariance (some hinv) .effsize parts constraints = .ok (some hinv) := by
    obtain ⟨p0, ps, rfl⟩ := List.exists_cons_of_ne_nil hne
    unfold weightedCovariance
    rw [if_pos ⟨by decide, by
      rw [List.any_eq_true]
      exact ⟨p0, List.mem_cons_self, Option.isSome_iff_ne_none.2 (hw p0 List.mem_cons_self)⟩⟩]
    simp only [covarianceWithWeights]
    rw [if_neg]
    rw [List.any_eq_true]
    rintro ⟨p, hp, h⟩
    exact hw p hp (Option.isNone_iff_eq_none.1 h)
  refine ⟨by rw [hval]; simp [weightedCovariance], ?_⟩
  rw [hval]
  intro h
  simp only [Except.ok.injEq, Option.some.injEq] at h
  have h1 : (effFactor parts - 1) • hinv = 0 := by rw [sub_smul, one_smul, ← h, sub_self]
  rcases smul_eq_zero.1 h1 with h2 | h2
  · exact hf (by linarith)
  · exact h0 h2

example : effFactor [(⟨[fun _ => 1, fun _ => 3], some [2, 2], 4, none⟩ : Part Unit)] ≠ 1 := by
  simp [effFactor, Part.events]
  norm_num

/-- C129 fails if only some of the datasets have weights: an `AttributeError` is raised. -/
theorem effsize_mixed_violated (hinv : Matrix n n ℝ) (p q : Part n) (hp : p.weights ≠ none) (hq : q.weights = none)
    (constraints : List (n → ℝ)) :
    weightedCovariance (some hinv) .effsize [p, q] constraints = .error .attributeError := by
  unfold weightedCovariance
  rw [if_pos ⟨by decide, by simp [Option.isSome_iff_ne_none.2 hp]⟩]
  simp [covarianceWithWeights, hq]

end Zfit.Unc
