import Verif.Unc.Props
import Verif.Wrap.Edm
import Mathlib.Analysis.Calculus.FDeriv.Add
import Mathlib.Analysis.Calculus.FDeriv.Comp
import Mathlib.Analysis.Calculus.FDeriv.Congr
import Mathlib.Analysis.Calculus.FDeriv.Linear
import Mathlib.Analysis.Calculus.FDeriv.Pi
import Mathlib.Analysis.Calculus.FDeriv.Pow
import Mathlib.Topology.Algebra.Module.FiniteDimension

/-!
# Property C311 (see /verif/properties.jsonl): the choice of the parameters makes no difference to convergence and errors

The loss `f` of the parameters `x` is written in terms of other parameters `y`, with `x = A y + c` for an invertible matrix `A`: other units, a
sum and a difference, any linear change.
-/

namespace Zfit.Unc

open Zfit Matrix Filter Topology Zfit.Wrap

variable {n : Type} [Fintype n] [DecidableEq n]

/-! ### Specification -/

/-- The linear function with the coefficients `g`. -/
noncomputable def dotL (g : n → ℝ) : (n → ℝ) →L[ℝ] ℝ := LinearMap.toContinuousLinearMap (dotProductBilin ℝ ℝ g)

/-- The linear map with the matrix `H`. -/
noncomputable def mulL (H : Matrix n n ℝ) : (n → ℝ) →L[ℝ] (n → ℝ) := LinearMap.toContinuousLinearMap H.mulVecLin

/-- `g` are the first and `H` the second derivatives of `f` at `x`. -/
def Derivs (f : (n → ℝ) → ℝ) (x g : n → ℝ) (H : Matrix n n ℝ) : Prop :=
  ∃ G : (n → ℝ) → (n → ℝ), (∀ᶠ y in 𝓝 x, HasFDerivAt f (dotL (G y)) y) ∧ HasFDerivAt G (mulL H) x ∧ G x = g

/-- The first parameters as a function of the others. -/
def change (A : Matrix n n ℝ) (c y : n → ℝ) : n → ℝ := A *ᵥ y + c

/-- Two results for one fit: the second in terms of the other parameters.  The values and what the minimiser knows are the same, expressed in these
parameters. -/
structure Changed (A : Matrix n n ℝ) (c : n → ℝ) (f : (n → ℝ) → ℝ) (r r' : Result n) : Prop where
  loss : ∀ x, ∃ g, Derivs f x g (r.obj.hessian x)
  loss' : ∀ y, ∃ g, Derivs (fun y => f (change A c y)) y g (r'.obj.hessian y)
  errordef : r'.obj.errordef = r.obj.errordef
  values : r.values = change A c r'.values
  approx : r.approxInv = r'.approxInv.map fun V => A * V * Aᵀ

/-! ### Derivatives -/

@[simp] theorem dotL_apply (g v : n → ℝ) : dotL g v = g ⬝ᵥ v := rfl

@[simp] theorem mulL_apply (H : Matrix n n ℝ) (v : n → ℝ) : mulL H v = H *ᵥ v := rfl

theorem dotL_inj {g h : n → ℝ} (e : dotL g = dotL h) : g = h := by
  funext i
  have := congrArg (fun L : (n → ℝ) →L[ℝ] ℝ => L (Pi.single i 1)) e
  simpa using this

theorem mulL_inj {G H : Matrix n n ℝ} (e : mulL G = mulL H) : G = H := by
  ext i j
  have := congrArg (fun L : (n → ℝ) →L[ℝ] (n → ℝ) => L (Pi.single j 1) i) e
  simpa using this

/-- Derivatives are unique. -/
theorem Derivs.unique {f : (n → ℝ) → ℝ} {x g g' : n → ℝ} {H H' : Matrix n n ℝ} (h : Derivs f x g H) (h' : Derivs f x g' H') :
    g = g' ∧ H = H' := by
  obtain ⟨G, h1, h2, rfl⟩ := h
  obtain ⟨G', h1', h2', rfl⟩ := h'
  have hev : ∀ᶠ y in 𝓝 x, G y = G' y := by
    filter_upwards [h1, h1'] with y a b using dotL_inj (a.unique b)
  exact ⟨hev.self_of_nhds, mulL_inj (h2.unique (h2'.congr_of_eventuallyEq hev))⟩

theorem change_hasFDerivAt (A : Matrix n n ℝ) (c y : n → ℝ) : HasFDerivAt (change A c) (mulL A) y :=
  ((mulL A).hasFDerivAt (x := y)).add_const c

/-- The derivatives in the other parameters. -/
theorem Derivs.change {f : (n → ℝ) → ℝ} {A : Matrix n n ℝ} {c y g : n → ℝ} {H : Matrix n n ℝ} (h : Derivs f (change A c y) g H) :
    Derivs (fun y => f (Unc.change A c y)) y (Aᵀ *ᵥ g) (Aᵀ * H * A) := by
  obtain ⟨G, h1, h2, rfl⟩ := h
  refine ⟨fun z => Aᵀ *ᵥ G (Unc.change A c z), ?_, ?_, rfl⟩
  · have := (change_hasFDerivAt A c y).continuousAt.eventually h1
    filter_upwards [this] with z hz
    have e : dotL (Aᵀ *ᵥ G (Unc.change A c z)) = (dotL (G (Unc.change A c z))).comp (mulL A) := by
      ext v
      simp [mulVec_transpose, dotProduct_mulVec]
    rw [e]
    exact hz.comp z (change_hasFDerivAt A c z)
  · have e : mulL (Aᵀ * H * A) = (mulL Aᵀ).comp ((mulL H).comp (mulL A)) := by
      ext v
      simp [mulVec_mulVec, Matrix.mul_assoc]
    rw [e]
    exact ((mulL Aᵀ).hasFDerivAt).comp y (h2.comp y (change_hasFDerivAt A c y))

/-- The derivatives of the loss in the other parameters, whoever computes them. -/
theorem Derivs.of_change {f : (n → ℝ) → ℝ} {A : Matrix n n ℝ} {c y g g' : n → ℝ} {H H' : Matrix n n ℝ} (h : Derivs f (Unc.change A c y) g H)
    (h' : Derivs (fun y => f (Unc.change A c y)) y g' H') : g' = Aᵀ *ᵥ g ∧ H' = Aᵀ * H * A :=
  h'.unique h.change

/-! ### Convergence -/

theorem quad_change {A : Matrix n n ℝ} (hA : A.det ≠ 0) (H : Matrix n n ℝ) (g : n → ℝ) :
    (Aᵀ *ᵥ g) ⬝ᵥ ((Aᵀ * H * A)⁻¹ *ᵥ (Aᵀ *ᵥ g)) = g ⬝ᵥ (H⁻¹ *ᵥ g) := by
  have hu : IsUnit A.det := isUnit_iff_ne_zero.2 hA
  have hu' : IsUnit Aᵀ.det := by rwa [det_transpose]
  rw [Matrix.mul_inv_rev, Matrix.mul_inv_rev, mulVec_mulVec, Matrix.mul_assoc, Matrix.mul_assoc, nonsing_inv_mul _ hu', Matrix.mul_one,
    ← mulVec_mulVec, mulVec_transpose, ← dotProduct_mulVec, mulVec_mulVec, mul_nonsing_inv _ hu, one_mulVec]

/-- C311, convergence: the criterion has the same value in both, whether gradient and inverse Hessian are those of the loss or those the minimiser
knows. -/
theorem edm_reparametrised {f : (n → ℝ) → ℝ} {A : Matrix n n ℝ} (hA : A.det ≠ 0) {c y g g' : n → ℝ} {H H' : Matrix n n ℝ}
    (h : Derivs f (change A c y) g H) (h' : Derivs (fun y => f (change A c y)) y g' H') (ag : Option (n → ℝ)) (ai : Option (Matrix n n ℝ)) :
    edmValue (ag.map (Aᵀ *ᵥ ·)) ai g' H' = edmValue ag (ai.map fun V => A * V * Aᵀ) g H := by
  obtain ⟨rfl, rfl⟩ := h.of_change h'
  have hg : (ag.map (Aᵀ *ᵥ ·)).getD (Aᵀ *ᵥ g) = Aᵀ *ᵥ ag.getD g := by cases ag <;> rfl
  unfold edmValue
  rw [hg]
  cases ai with
  | none =>
    have : calculateEdmHesse (Aᵀ *ᵥ ag.getD g) (Aᵀ * H * A) = calculateEdmHesse (ag.getD g) H := by
      unfold calculateEdmHesse
      rw [quad_change hA]
      have : (Aᵀ * H * A).det = 0 ↔ H.det = 0 := by
        rw [det_mul, det_mul, det_transpose]
        simp [hA]
      simp only [this]
    simp only [Option.map_none, this]
  | some V =>
    have : calculateEdm (Aᵀ *ᵥ ag.getD g) V = calculateEdm (ag.getD g) (A * V * Aᵀ) := by
      unfold calculateEdm
      congr 1
      rw [← dotProduct_mulVec, ← dotProduct_mulVec, mulVec_transpose, ← dotProduct_mulVec, ← mulVec_mulVec, ← mulVec_mulVec, ← mulVec_transpose A]
    simp only [Option.map_some, this]

/-- C311: so the fit has converged in the one if and only if it has in the other. -/
theorem converged_reparametrised {f : (n → ℝ) → ℝ} {A : Matrix n n ℝ} (hA : A.det ≠ 0) {c y g g' : n → ℝ} {H H' : Matrix n n ℝ}
    (h : Derivs f (change A c y) g H) (h' : Derivs (fun y => f (change A c y)) y g' H') (ag : Option (n → ℝ)) (ai : Option (Matrix n n ℝ))
    (tol errordef : ℝ) :
    Smaller (some (edmValue (ag.map (Aᵀ *ᵥ ·)) ai g' H')) (critGoal tol errordef) ↔
      Smaller (some (edmValue ag (ai.map fun V => A * V * Aᵀ) g H)) (critGoal tol errordef) := by
  rw [edm_reparametrised hA h h']

/-! ### Errors -/

theorem inv_change {A : Matrix n n ℝ} (hA : A.det ≠ 0) (H : Matrix n n ℝ) : A * (Aᵀ * H * A)⁻¹ * Aᵀ = H⁻¹ := by
  have hu : IsUnit A.det := isUnit_iff_ne_zero.2 hA
  have hu' : IsUnit Aᵀ.det := by rwa [det_transpose]
  rw [Matrix.mul_inv_rev, Matrix.mul_inv_rev, ← Matrix.mul_assoc, ← Matrix.mul_assoc, mul_nonsing_inv _ hu, Matrix.one_mul, Matrix.mul_assoc,
    nonsing_inv_mul _ hu', Matrix.mul_one]

/-- C311, covariance: by every method the covariance of the parameters is that of the other parameters, transformed as the parameters are. -/
theorem covariance_reparametrised {f : (n → ℝ) → ℝ} {A : Matrix n n ℝ} (hA : A.det ≠ 0) {c : n → ℝ} {r r' : Result n}
    (h : Changed A c f r r') (m : Method) (params params' : Option (List n)) (cur : n → ℝ) :
    (r.covariance m params (change A c cur)).2 = (r'.covariance m params' cur).2.map fun V => A * V * Aᵀ := by
  have hess : ∀ y, r'.obj.hessian y = Aᵀ * r.obj.hessian (change A c y) * A := fun y => by
    obtain ⟨g, h1⟩ := h.loss (change A c y)
    obtain ⟨g', h2⟩ := h.loss' y
    exact (h1.of_change h2).2
  cases m with
  | np => simp [Result.covariance, Result.method, hess, inv_change hA]
  | minuit => simp [Result.covariance, Result.method, hess, inv_change hA, h.values, h.errordef]
  | approx => simp [Result.covariance, Result.method, h.approx]

/-- What the correction for weights needs, in the other parameters. -/
def Part.change (A : Matrix n n ℝ) (p : Part n) : Part n :=
  { p with logGrads := p.logGrads.map (Aᵀ *ᵥ ·), yld := p.yld.map fun y => (y.1, Aᵀ *ᵥ y.2) }

theorem yieldGrad_change (A : Matrix n n ℝ) (s y : ℝ) (g : n → ℝ) : yieldGrad s y (Aᵀ *ᵥ g) = Aᵀ *ᵥ yieldGrad s y g := by
  have : yieldGrad s y g = (1 - s / y) • g := rfl
  rw [this, mulVec_smul]
  rfl

theorem columns_change (A : Matrix n n ℝ) (p : Part n) : (p.change A).columns = p.columns.map (Aᵀ *ᵥ ·) := by
  obtain ⟨lg, w, s, y⟩ := p
  have hz : ∀ (lg : List (n → ℝ)) (w : List ℝ), List.zipWith (fun g w => fun i => w * g i) (lg.map (Aᵀ *ᵥ ·)) w =
      (List.zipWith (fun g w => fun i => w * g i) lg w).map (Aᵀ *ᵥ ·) := by
    intro lg
    induction lg with
    | nil => intro w; rfl
    | cons g lg ih =>
      intro w
      cases w with
      | nil => rfl
      | cons a w =>
        have : (fun i => a * (Aᵀ *ᵥ g) i) = Aᵀ *ᵥ (fun i => a * g i) := by
          have e : (fun i => a * g i) = a • g := rfl
          rw [e, mulVec_smul]
          rfl
        simp only [List.map_cons, List.zipWith_cons_cons, ih, this]
  cases w <;> cases y <;> simp [Part.columns, Part.change, hz, yieldGrad_change]

theorem outer_change (A : Matrix n n ℝ) (cols : List (n → ℝ)) : outer (cols.map (Aᵀ *ᵥ ·)) = Aᵀ * outer cols * A := by
  induction cols with
  | nil => ext i j; simp [outer, Matrix.mul_apply]
  | cons c cols ih =>
    have hc : ∀ (c : n → ℝ) (l : List (n → ℝ)), outer (c :: l) = vecMulVec c c + outer l := by
      intro c l
      ext i j
      simp [outer, vecMulVec_apply]
    rw [List.map_cons, hc, hc, ih, Matrix.mul_add, Matrix.add_mul, mul_vecMulVec, vecMulVec_mul, ← mulVec_transpose]

/-- C311, weights: also the covariance corrected for weights transforms like the parameters. -/
theorem weighted_reparametrised {A : Matrix n n ℝ} (V : Matrix n n ℝ) (corr : Corr) (parts : List (Part n)) (constraints : List (n → ℝ)) :
    weightedCovariance (some (A * V * Aᵀ)) corr parts constraints =
      (weightedCovariance (some V) corr (parts.map (Part.change A)) (constraints.map (Aᵀ *ᵥ ·))).map (Option.map fun C => A * C * Aᵀ) := by
  have hw : ∀ q : Part n → Bool, (∀ p, q (p.change A) = q p) → (parts.map (Part.change A)).any q = parts.any q := by
    intro q hq
    rw [List.any_map]
    exact congrArg (fun r => parts.any r) (funext hq)
  unfold weightedCovariance
  rw [hw (fun p => p.weights.isSome) (fun _ => rfl)]
  split
  · unfold covarianceWithWeights
    cases corr with
    | off => rfl
    | asymptotic =>
      have hcols : (parts.map (Part.change A)).flatMap Part.columns ++ constraints.map (Aᵀ *ᵥ ·) =
          (parts.flatMap Part.columns ++ constraints).map (Aᵀ *ᵥ ·) := by
        rw [List.map_append, List.flatMap_map, List.map_flatMap]
        simp only [columns_change]
      simp only [hcols, outer_change, Except.map, Option.map_some]
      simp only [Matrix.mul_assoc]
    | effsize =>
      simp only [hw (fun p => p.weights.isNone) (fun _ => rfl)]
      split <;> rfl
  · rfl

/-- C311, errors: the error of a parameter in another unit is the error times the factor between the units. -/
theorem hesse_other_unit {f : (n → ℝ) → ℝ} {a c : n → ℝ} (ha : ∀ i, a i ≠ 0) {r r' : Result n} (h : Changed (diagonal a) c f r r') (m : Method)
    (cur : n → ℝ) (C C' : Matrix n n ℝ) (hC : (r.covariance m none (change (diagonal a) c cur)).2 = some C)
    (hC' : (r'.covariance m none cur).2 = some C') (i j : n) (sigma : ℝ) :
    hesseError C i sigma = |a i| * hesseError C' i sigma ∧ C i j = a i * a j * C' i j := by
  have hd : (diagonal a).det ≠ 0 := by
    rw [det_diagonal]
    exact Finset.prod_ne_zero_iff.2 fun i _ => ha i
  rw [covariance_reparametrised hd h m none none, hC', Option.map_some, Option.some.injEq] at hC
  have key : ∀ i j, C i j = a i * a j * C' i j := by
    intro i j
    rw [← hC, diagonal_transpose, mul_diagonal, diagonal_mul]
    ring
  refine ⟨?_, key i j⟩
  unfold hesseError
  rw [key i i, Real.sqrt_mul (mul_self_nonneg _), Real.sqrt_mul_self_eq_abs]
  ring

/-! ### An instance -/

/-- A loss of two parameters. -/
noncomputable def exLoss (x : Fin 2 → ℝ) : ℝ := x 0 ^ 2 / 2 + 2 * x 1 ^ 2

theorem exLoss_derivs (x : Fin 2 → ℝ) : Derivs exLoss x ![x 0, 4 * x 1] !![1, 0; 0, 4] := by
  refine ⟨fun y => ![y 0, 4 * y 1], Eventually.of_forall fun y => ?_, ?_, rfl⟩
  · have h0 := ((hasFDerivAt_apply (𝕜 := ℝ) (F' := fun _ : Fin 2 => ℝ) 0 y).pow 2).mul_const (1 / 2)
    have h1 := ((hasFDerivAt_apply (𝕜 := ℝ) (F' := fun _ : Fin 2 => ℝ) 1 y).pow 2).const_mul 2
    refine ((h0.add h1).congr_of_eventuallyEq (Eventually.of_forall fun z => ?_)).congr_fderiv ?_
    · simp [exLoss]; ring
    · ext v
      simp [dotProduct, Fin.sum_univ_two]
      ring
  · have : (fun y : Fin 2 → ℝ => ![y 0, 4 * y 1]) = mulL !![1, 0; 0, 4] := by
      funext y i
      fin_cases i <;> simp [mulVec, dotProduct, Fin.sum_univ_two]
    rw [this]
    exact (mulL _).hasFDerivAt

/-- A sum and a difference as parameters. -/
def exChange : Matrix (Fin 2) (Fin 2) ℝ := !![1, 1; 1, -1]

/-- The results of a fit of `exLoss` and of the fit in terms of sum and difference meet the hypotheses; so do two units. -/
example : exChange.det ≠ 0 ∧ ∀ A c, ∃ r r' : Result (Fin 2), Changed A c exLoss r r' := by
  refine ⟨by simp [exChange, det_fin_two]; norm_num, fun A c =>
    ⟨⟨⟨fun _ => !![1, 0; 0, 4], 1 / 2⟩, change A c 0, some (A * 1 * Aᵀ), 0⟩, ⟨⟨fun _ => Aᵀ * !![1, 0; 0, 4] * A, 1 / 2⟩, 0, some 1, 0⟩,
      fun x => ⟨_, exLoss_derivs x⟩, fun y => ⟨_, (exLoss_derivs (change A c y)).change⟩, rfl, rfl, rfl⟩⟩

end Zfit.Unc
