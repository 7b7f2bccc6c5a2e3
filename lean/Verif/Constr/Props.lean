import Verif.Constr.Model
import Mathlib.LinearAlgebra.Matrix.Block
import Mathlib.LinearAlgebra.Matrix.Notation
import Mathlib.LinearAlgebra.Matrix.DotProduct
import Mathlib.Analysis.SpecialFunctions.Gaussian.GaussianIntegral
import Mathlib.Analysis.Real.Pi.Bounds
import Mathlib.Analysis.Complex.ExponentialBounds
import Mathlib.Tactic.FieldSimp
import Mathlib.Tactic.Ring
import Mathlib.Tactic.Linarith
import Mathlib.Tactic.NormNum
import Mathlib.Tactic.Positivity

/-! Properties of the constraints (C79, C80). -/

namespace Zfit.Constr

open Zfit Matrix

variable {n : ℕ}

/-- What a Cholesky decomposition is: if it succeeds, the result is lower triangular with positive diagonal, and its
product with its transpose is the given matrix (only the lower triangle of which is read). -/
structure IsCholesky (chol : Matrix (Fin n) (Fin n) ℝ → Except Err (Matrix (Fin n) (Fin n) ℝ)) : Prop where
  lower : ∀ S L, chol S = .ok L → ∀ i j, i < j → L i j = 0
  pos : ∀ S L, chol S = .ok L → ∀ i, 0 < L i i
  prod : ∀ S L, chol S = .ok L → ∀ i j, j ≤ i → (L * Lᵀ) i j = S i j

/-- The negative logarithm of the multivariate normal density with covariance `S`. -/
noncomputable def normalNll (S : Matrix (Fin n) (Fin n) ℝ) (mu x : Fin n → ℝ) : ℝ :=
  1 / 2 * ((x - mu) ⬝ᵥ (S⁻¹ *ᵥ (x - mu))) + 1 / 2 * Real.log S.det + n / 2 * Real.log (2 * Real.pi)

theorem chol_spec {chol : Matrix (Fin n) (Fin n) ℝ → Except Err (Matrix (Fin n) (Fin n) ℝ)} (hc : IsCholesky chol)
    {S L : Matrix (Fin n) (Fin n) ℝ} (hS : S.IsSymm) (h : chol S = .ok L) :
    L * Lᵀ = S ∧ L.det = ∏ i, L i i ∧ 0 < L.det := by
  have hdet : L.det = ∏ i, L i i := det_of_lowerTriangular L (fun i j hij => hc.lower S L h i j hij)
  refine ⟨?_, hdet, ?_⟩
  · ext i j
    rcases le_total j i with hij | hij
    · exact hc.prod S L h i j hij
    · have h1 := hc.prod S L h j i hij
      rw [← hS.apply i j, ← h1]
      simp only [mul_apply, transpose_apply]
      exact Finset.sum_congr rfl fun k _ => mul_comm _ _
  · rw [hdet]
    exact Finset.prod_pos fun i _ => hc.pos S L h i

theorem mvn_eq (S L : Matrix (Fin n) (Fin n) ℝ) (hp : L * Lᵀ = S) (hd : L.det = ∏ i, L i i) (h0 : 0 < L.det)
    (hpos : ∀ i, 0 < L i i) (mu x : Fin n → ℝ) : -(mvnLogProb mu L x) = normalNll S mu x := by
  have e1 : S⁻¹ = (L⁻¹)ᵀ * L⁻¹ := by
    rw [← hp, Matrix.mul_inv_rev, transpose_nonsing_inv]
  have e2 : (x - mu) ⬝ᵥ (S⁻¹ *ᵥ (x - mu)) = (L⁻¹ *ᵥ (x - mu)) ⬝ᵥ (L⁻¹ *ᵥ (x - mu)) := by
    rw [e1, ← mulVec_mulVec, dotProduct_mulVec, vecMul_transpose]
  have e3 : Real.log S.det = 2 * ∑ i, Real.log (L i i) := by
    rw [← hp, det_mul, det_transpose, Real.log_mul h0.ne' h0.ne', hd, Real.log_prod (fun i _ => (hpos i).ne')]
    ring
  unfold mvnLogProb normalNll
  simp only
  rw [e2, e3]
  ring

/-! ## C79: the Gaussian constraint -/

/-- C79. A Gaussian constraint with a symmetric covariance matrix has, wherever its value can be computed, the value of the
negative logarithm of the multivariate normal density of the parameters around the observations (equivalently, of the
observations around the parameters). -/
theorem gaussian_value (chol : Matrix (Fin n) (Fin n) ℝ → Except Err (Matrix (Fin n) (Fin n) ℝ)) (hc : IsCholesky chol)
    (obs : List ℝ) (a : ℕ → ℕ → ℝ) (ha : ∀ i j, a i j = a j i) (g : Gaussian n)
    (hg : gaussianConstraint n obs none none (some (.mat n a)) = .ok g) (x : Fin n → ℝ) (v : ℝ)
    (hv : gaussianValue chol g x = .ok v) :
    v = normalNll (fun i j => a i j) (fun i => obs.getD i 0) x ∧
    v = normalNll (fun i j => a i j) x (fun i => obs.getD i 0) := by
  simp only [gaussianConstraint, preprocess, Option.isSome_none, Bool.false_eq_true, if_false] at hg
  by_cases hl : obs.length = n
  · rw [if_pos hl] at hg
    simp only [Except.ok.injEq] at hg
    subst hg
    simp only [gaussianValue, covariance, if_true] at hv
    cases hch : chol (Square.toMatrix ⟨n, a⟩ n) with
    | error e => rw [hch] at hv; cases hv
    | ok L =>
      rw [hch] at hv
      simp only [Except.ok.injEq] at hv
      have hS : (Square.toMatrix ⟨n, a⟩ n).IsSymm := by
        ext i j
        exact ha j i
      obtain ⟨h1, h2, h3⟩ := chol_spec hc hS hch
      have h4 := mvn_eq _ L h1 h2 h3 (hc.pos _ L hch) (fun i => obs.getD i 0) x
      rw [h4] at hv
      refine ⟨hv.symm, ?_⟩
      rw [← hv]
      unfold normalNll
      have : x - (fun i : Fin n => obs.getD i 0) = -((fun i : Fin n => obs.getD i 0) - x) := by
        funext i; simp
      rw [this, mulVec_neg, neg_dotProduct_neg]
      rfl
  · rw [if_neg hl] at hg; cases hg

/-- C79. Standard deviations `s`, variances `s²` and the diagonal matrix of `s²` give the same constraint. -/
theorem gaussian_spellings (obs : List ℝ) (m : ℕ) (s : ℕ → ℝ) :
    gaussianConstraint n obs none (some (.vec m s)) none = gaussianConstraint n obs none none (some (.vec m fun i => s i ^ 2)) ∧
    gaussianConstraint n obs none (some (.vec m s)) none =
      gaussianConstraint n obs none none (some (.mat m fun i j => if i = j then s i ^ 2 else 0)) := by
  constructor <;> rfl

/-- C79. With standard deviations, the constraint is the sum of one normal constraint per parameter. -/
theorem gaussian_independent (chol : Matrix (Fin n) (Fin n) ℝ → Except Err (Matrix (Fin n) (Fin n) ℝ)) (hc : IsCholesky chol)
    (obs : List ℝ) (s : ℕ → ℝ) (hs : ∀ i < n, s i ≠ 0) (g : Gaussian n)
    (hg : gaussianConstraint n obs none (some (.vec n s)) none = .ok g) (x : Fin n → ℝ) (v : ℝ)
    (hv : gaussianValue chol g x = .ok v) :
    v = ∑ i : Fin n, ((x i - obs.getD i 0) ^ 2 / (2 * s i ^ 2) + Real.log |s i| + 1 / 2 * Real.log (2 * Real.pi)) := by
  rw [(gaussian_spellings obs n s).2] at hg
  have h1 := (gaussian_value chol hc obs _ (fun i j => by
    by_cases h : i = j
    · subst h; rfl
    · rw [if_neg h, if_neg (Ne.symm h)]) g hg x v hv).1
  rw [h1]
  have hS : (fun (i j : Fin n) => if (i : ℕ) = (j : ℕ) then s i ^ 2 else 0) = Matrix.diagonal fun i : Fin n => s i ^ 2 := by
    funext i j
    rw [diagonal_apply]
    by_cases h : i = j
    · subst h; simp
    · rw [if_neg h, if_neg (fun hh => h (Fin.ext hh))]
  have hs' : ∀ i : Fin n, s i ^ 2 ≠ 0 := fun i => pow_ne_zero 2 (hs i i.2)
  have hinv : (Matrix.diagonal fun i : Fin n => s i ^ 2)⁻¹ = Matrix.diagonal fun i : Fin n => (s i ^ 2)⁻¹ := by
    apply inv_eq_right_inv
    rw [diagonal_mul_diagonal, ← diagonal_one]
    congr 1
    funext i
    exact mul_inv_cancel₀ (hs' i)
  unfold normalNll
  rw [hS, hinv, det_diagonal, Real.log_prod (fun i _ => hs' i)]
  simp only [dotProduct, mulVec_diagonal, Finset.mul_sum, Finset.sum_add_distrib, Finset.sum_const, Finset.card_univ,
    Fintype.card_fin, nsmul_eq_mul]
  congr 1
  · congr 1
    · refine Finset.sum_congr rfl fun i _ => ?_
      have := hs' i
      simp only [Pi.sub_apply]
      field_simp
    · refine Finset.sum_congr rfl fun i _ => ?_
      rw [← sq_abs, Real.log_pow]
      push_cast
      ring
  · ring

/-- C79. The Gaussian constraint is smallest where the parameters are the observations, and only there. -/
theorem gaussian_minimum (chol : Matrix (Fin n) (Fin n) ℝ → Except Err (Matrix (Fin n) (Fin n) ℝ)) (hc : IsCholesky chol)
    (g : Gaussian n) (x : Fin n → ℝ) (v v0 : ℝ) (hv : gaussianValue chol g x = .ok v)
    (h0 : gaussianValue chol g g.observation = .ok v0) : v0 ≤ v ∧ (x ≠ g.observation → v0 < v) := by
  simp only [gaussianValue] at hv h0
  cases hcov : covariance g with
  | error e => rw [hcov] at hv; cases hv
  | ok c =>
    rw [hcov] at hv h0
    by_cases hn : c.size = n
    · simp only [if_pos hn] at hv h0
      cases hch : chol (c.toMatrix n) with
      | error e => rw [hch] at hv; cases hv
      | ok L =>
        rw [hch] at hv h0
        simp only [Except.ok.injEq, mvnLogProb, sub_self, mulVec_zero, dotProduct_zero, mul_zero] at hv h0
        have hd : L.det ≠ 0 := by
          rw [det_of_lowerTriangular L (fun i j hij => hc.lower _ L hch i j hij)]
          exact Finset.prod_ne_zero_iff.2 fun i _ => (hc.pos _ L hch i).ne'
        have hq : 0 ≤ (L⁻¹ *ᵥ (x - g.observation)) ⬝ᵥ (L⁻¹ *ᵥ (x - g.observation)) :=
          Finset.sum_nonneg fun i _ => mul_self_nonneg _
        refine ⟨by rw [← hv, ← h0]; linarith, fun hx => ?_⟩
        have hne : L⁻¹ *ᵥ (x - g.observation) ≠ 0 := by
          intro hz
          have := congrArg (fun w => L *ᵥ w) hz
          simp only [mulVec_mulVec, mulVec_zero, mul_nonsing_inv L (isUnit_iff_ne_zero.2 hd), one_mulVec] at this
          exact hx (sub_eq_zero.1 this)
        have hq' : 0 < (L⁻¹ *ᵥ (x - g.observation)) ⬝ᵥ (L⁻¹ *ᵥ (x - g.observation)) :=
          lt_of_le_of_ne hq (fun h => hne (dotProduct_self_eq_zero.1 h.symm))
        rw [← hv, ← h0]
        linarith
    · simp only [if_neg hn] at hv
      cases hv

/-- C79. Contradictory or unusable inputs are rejected: both `sigma` and `cov`, one of them with `uncertainty`, a `sigma`
that is a matrix, and a number of observations other than the number of parameters. -/
theorem gaussian_rejects (obs : List ℝ) (u s c : Input) (m : ℕ) (a : ℕ → ℕ → ℝ) (sigma cov : Option Input) :
    gaussianConstraint n obs none (some s) (some c) = .error .valueError ∧
    gaussianConstraint n obs (some u) (some s) cov = .error .valueError ∧
    gaussianConstraint n obs (some u) none (some c) = .error .valueError ∧
    gaussianConstraint n obs none (some (.mat m a)) none = .error .valueError ∧
    (obs.length ≠ n → ∃ e, gaussianConstraint n obs none sigma cov = .error e) := by
  refine ⟨rfl, rfl, rfl, rfl, fun h => ?_⟩
  unfold gaussianConstraint
  cases preprocess cov sigma (none : Option Input).isSome with
  | error e => exact ⟨e, rfl⟩
  | ok c => exact ⟨.shapeIncompatible, by simp only [if_neg h]⟩

/-- C79. The deprecated `uncertainty` means standard deviations if it is a list and a covariance if it is a matrix; other sizes than
the number of parameters are rejected when the value is needed. -/
theorem gaussian_legacy (obs : List ℝ) (h : obs.length = n) (chol : Matrix (Fin n) (Fin n) ℝ → Except Err (Matrix (Fin n) (Fin n) ℝ))
    (s : ℕ → ℝ) (a : ℕ → ℕ → ℝ) (m : ℕ) (x : Fin n → ℝ) :
    (∃ g g', gaussianConstraint n obs (some (.vec n s)) none none = .ok g ∧
      gaussianConstraint n obs none (some (.vec n s)) none = .ok g' ∧ gaussianValue chol g x = gaussianValue chol g' x) ∧
    (∃ g g', gaussianConstraint n obs (some (.mat n a)) none none = .ok g ∧
      gaussianConstraint n obs none none (some (.mat n a)) = .ok g' ∧ gaussianValue chol g x = gaussianValue chol g' x) ∧
    (m ≠ n → ∃ g, gaussianConstraint n obs (some (.mat m a)) none none = .ok g ∧
      gaussianValue chol g x = .error .shapeIncompatible) := by
  refine ⟨?_, ?_, fun hm => ?_⟩
  · simp [gaussianConstraint, preprocess, h, gaussianValue, covariance, legacyCovariance, diag]
  · simp [gaussianConstraint, preprocess, h, gaussianValue, covariance, legacyCovariance]
  · simp [gaussianConstraint, preprocess, h, gaussianValue, covariance, legacyCovariance, Ne.symm hm]

/-- C79, a part that fails: a constraint without any uncertainty can be created; only its value cannot be computed. -/
theorem gaussian_without_uncertainty_violated (obs : List ℝ) (h : obs.length = n)
    (chol : Matrix (Fin n) (Fin n) ℝ → Except Err (Matrix (Fin n) (Fin n) ℝ)) (x : Fin n → ℝ) :
    ∃ g, gaussianConstraint n obs none none none = .ok g ∧ gaussianValue chol g x = .error .invalidArgument := by
  simp [gaussianConstraint, preprocess, h, gaussianValue, covariance]

/-- A Cholesky decomposition of the positive diagonal matrices. -/
noncomputable def diagChol (S : Matrix (Fin n) (Fin n) ℝ) : Except Err (Matrix (Fin n) (Fin n) ℝ) :=
  open Classical in
  if (∀ i j, i ≠ j → S i j = 0) ∧ ∀ i, 0 < S i i then .ok (Matrix.diagonal fun i => Real.sqrt (S i i))
  else .error .invalidArgument

/-- The hypothesis on the Cholesky decomposition can be met. -/
theorem diagChol_is : IsCholesky (diagChol (n := n)) := by
  have key : ∀ S L : Matrix (Fin n) (Fin n) ℝ, diagChol S = .ok L →
      ((∀ i j, i ≠ j → S i j = 0) ∧ ∀ i, 0 < S i i) ∧ L = Matrix.diagonal fun i => Real.sqrt (S i i) := by
    intro S L h
    unfold diagChol at h
    by_cases hc : (∀ i j, i ≠ j → S i j = 0) ∧ ∀ i, 0 < S i i
    · rw [if_pos hc] at h
      simp only [Except.ok.injEq] at h
      exact ⟨hc, h.symm⟩
    · rw [if_neg hc] at h; cases h
  constructor
  · intro S L h i j hij
    rw [(key S L h).2, diagonal_apply_ne _ hij.ne]
  · intro S L h i
    rw [(key S L h).2, diagonal_apply_eq]
    exact Real.sqrt_pos.2 ((key S L h).1.2 i)
  · intro S L h i j hij
    obtain ⟨⟨h1, h2⟩, h3⟩ := key S L h
    rw [h3, diagonal_transpose, diagonal_mul_diagonal]
    by_cases hne : i = j
    · subst hne
      rw [diagonal_apply_eq, Real.mul_self_sqrt (h2 i).le]
    · rw [diagonal_apply_ne _ hne, h1 i j hne]

/-- The hypotheses of the theorems are met: two parameters, observations 1 and 2, standard deviations 1/2 and 3. -/
example : ∃ g : Gaussian 2, gaussianConstraint 2 [1, 2] none (some (.vec 2 fun i => if i = 0 then 1 / 2 else 3)) none = .ok g ∧
    ∀ x, ∃ v, gaussianValue diagChol g x = .ok v := by
  refine ⟨_, rfl, fun x => ?_⟩
  have h : ∃ L, diagChol (Square.toMatrix (diag 2 fun i => (fun i => if i = 0 then (1 / 2 : ℝ) else 3) i ^ 2) 2) = .ok L := by
    refine ⟨_, if_pos ⟨?_, ?_⟩⟩
    · intro i j h
      simp only [Square.toMatrix, diag]
      rw [if_neg (fun hh => h (Fin.ext hh))]
    · intro i
      simp only [Square.toMatrix, diag, if_true]
      fin_cases i <;> norm_num
  obtain ⟨L, hL⟩ := h
  simp only [gaussianValue, covariance]
  beta_reduce at hL
  rw [if_pos (show (diag 2 _).size = 2 from rfl), hL]
  exact ⟨_, rfl⟩

theorem foldl_get {P V : Type} [DecidableEq P] (l : List (P × V)) (d : List (P × V)) (p : P) (v : V)
    (hn : (l.map (·.1)).Nodup) :
    ((p, v) ∈ l → dictGet (l.foldl (fun d pv => dictSet d pv.1 pv.2) d) p = some v) ∧
    (p ∉ l.map (·.1) → dictGet (l.foldl (fun d pv => dictSet d pv.1 pv.2) d) p = dictGet d p) := by
  induction l generalizing d with
  | nil => simp
  | cons a l ih =>
    rw [List.map_cons, List.nodup_cons] at hn
    simp only [List.foldl_cons]
    constructor
    · intro hm
      rcases List.mem_cons.1 hm with h | h
      · subst h
        rw [(ih _ hn.2).2 hn.1, dictGet_set_self]
      · exact (ih _ hn.2).1 h
    · intro hm
      rw [List.map_cons, List.mem_cons, not_or] at hm
      rw [(ih _ hn.2).2 hm.2, dictGet_set_ne _ _ _ _ hm.1]

/-- C79. Sampling gives every constrained parameter its own column of the sample (the parameters being distinct). -/
theorem sample_columns {P V : Type} [DecidableEq P] (params : List P) (columns : List V) (hn : params.Nodup)
    (hl : params.length = columns.length) (i : ℕ) (hi : i < params.length) :
    dictGet (sampleDict params columns) params[i] = some columns[i] := by
  have hz : (params.zip columns).map (·.1) = params := List.map_fst_zip hl.le
  refine (foldl_get (params.zip columns) [] params[i] columns[i] (by rw [hz]; exact hn)).1 ?_
  have hi' : i < (params.zip columns).length := by rw [List.length_zip]; omega
  have := List.getElem_mem hi'
  rwa [List.getElem_zip] at this

example : dictGet (sampleDict ["a", "b"] [10, 20]) "b" = some 20 := by decide

/-! ## C80: Poisson and log-normal constraints -/

/-- The documented value: the negative logarithm of the Poisson probability of the observations, given the parameters as
means. -/
noncomputable def documentedPoisson (obs x : Fin n → ℝ) : ℝ :=
  ∑ i, (x i - obs i * Real.log (x i) + Real.log (Real.Gamma (obs i + 1)))

/-- C80. The value of the Poisson constraint exceeds the documented one by a difference that vanishes where the parameters
are the observations; it is the documented value with parameters and observations exchanged. Missing from the full claim: the cases of
`poisson_documented_violated`, `poisson_minimum_violated`, `lognormal_observation_violated`. -/
theorem poisson_exchanged_partial (obs x : Fin n → ℝ) :
    poissonValue obs x = documentedPoisson x obs ∧ poissonValue obs obs = documentedPoisson obs obs := by
  have h : ∀ obs x : Fin n → ℝ, poissonValue obs x = documentedPoisson x obs := by
    intro obs x
    unfold poissonValue documentedPoisson poissonLogProb
    exact Finset.sum_congr rfl fun i _ => by ring
  exact ⟨h obs x, h obs obs⟩

/-- C80 refuted: for the observation 1 and the parameter value 2 the constraint does not have the documented value. -/
theorem poisson_documented_violated : poissonValue ![1] ![2] ≠ documentedPoisson ![1] ![2] := by
  have g3 : Real.Gamma (2 + 1) = 2 := by
    rw [Real.Gamma_add_one (by norm_num), show (2 : ℝ) = 1 + 1 by norm_num, Real.Gamma_add_one (by norm_num), Real.Gamma_one]
    norm_num
  have g2 : Real.Gamma (1 + 1) = 1 := by
    rw [Real.Gamma_add_one (by norm_num), Real.Gamma_one]; norm_num
  simp only [poissonValue, documentedPoisson, poissonLogProb, Fin.sum_univ_one, cons_val_fin_one]
  rw [g3, g2, Real.log_one]
  intro h
  have hl : Real.log 2 = 1 / 2 := by linarith
  have h4 : Real.log 4 = 1 := by
    rw [show (4 : ℝ) = 2 ^ 2 by norm_num, Real.log_pow, hl]; norm_num
  have he := Real.exp_one_lt_d9
  have : Real.exp 1 = 4 := by rw [← h4, Real.exp_log (by norm_num)]
  linarith

/-- C80 refuted: the Poisson constraint is not smallest at the observation. For every whole-number observation `k` it has the
same value at `k - 1` ... -/
theorem poisson_two_minima (k : ℕ) (hk : 0 < k) : poissonValue ![(k : ℝ)] ![(k : ℝ) - 1] = poissonValue ![(k : ℝ)] ![(k : ℝ)] := by
  have hk' : (0 : ℝ) < k := by exact_mod_cast hk
  simp only [poissonValue, poissonLogProb, Fin.sum_univ_one, cons_val_fin_one, sub_add_cancel]
  rw [Real.Gamma_add_one hk'.ne', Real.log_mul hk'.ne' (Real.Gamma_pos_of_pos hk').ne']
  ring

/-- ... and for the observation 2 a smaller value at 3/2. -/
theorem poisson_minimum_violated : poissonValue ![2] ![3 / 2] < poissonValue ![2] ![2] := by
  have g3 : Real.Gamma (2 + 1) = 2 := by
    rw [Real.Gamma_add_one (by norm_num), show (2 : ℝ) = 1 + 1 by norm_num, Real.Gamma_add_one (by norm_num), Real.Gamma_one]
    norm_num
  have g5 : Real.Gamma (3 / 2 + 1) = 3 / 4 * Real.sqrt Real.pi := by
    rw [Real.Gamma_add_one (by norm_num), show (3 / 2 : ℝ) = 1 / 2 + 1 by norm_num, Real.Gamma_add_one (by norm_num),
      Real.Gamma_one_half_eq]
    ring
  simp only [poissonValue, poissonLogProb, Fin.sum_univ_one, cons_val_fin_one]
  rw [g3, g5]
  have hpi := Real.pi_lt_d2
  have h1 : Real.log (3 / 4 * Real.sqrt Real.pi) < 1 / 2 * Real.log 2 := by
    have h2 : (3 / 4 * Real.sqrt Real.pi) ^ 2 < 2 := by
      rw [mul_pow, Real.sq_sqrt Real.pi_pos.le]
      linarith
    have h3 := Real.log_lt_log (by positivity) h2
    rw [Real.log_pow] at h3
    push_cast at h3
    linarith
  linarith

/-- C80. The log-normal constraint with observation `o` and uncertainty `s` is smallest at `exp (o - s²)`, and only there. -/
theorem lognormal_minimum (o s x : ℝ) (hs : 0 < s) (hx : 0 < x) :
    lognormalValue ![o] ![s] ![Real.exp (o - s ^ 2)] ≤ lognormalValue ![o] ![s] ![x] ∧
    (x ≠ Real.exp (o - s ^ 2) → lognormalValue ![o] ![s] ![Real.exp (o - s ^ 2)] < lognormalValue ![o] ![s] ![x]) := by
  have key : lognormalValue ![o] ![s] ![x] - lognormalValue ![o] ![s] ![Real.exp (o - s ^ 2)] =
      (Real.log x - (o - s ^ 2)) ^ 2 / (2 * s ^ 2) := by
    simp only [lognormalValue, lognormalLogProb, Fin.sum_univ_one, cons_val_fin_one, Real.log_exp]
    field_simp
    ring
  constructor
  · have : 0 ≤ (Real.log x - (o - s ^ 2)) ^ 2 / (2 * s ^ 2) := by positivity
    linarith
  · intro hne
    have h1 : Real.log x - (o - s ^ 2) ≠ 0 := by
      intro h
      apply hne
      rw [← sub_eq_zero.1 h, Real.exp_log hx]
    have : 0 < (Real.log x - (o - s ^ 2)) ^ 2 / (2 * s ^ 2) := by positivity
    linarith

/-- C80 refuted: a log-normal constraint to the observation 1 with an uncertainty other than one is not smallest at 1. -/
theorem lognormal_observation_violated (s : ℝ) (hs : 0 < s) (h1 : s ≠ 1) :
    lognormalValue ![1] ![s] ![Real.exp (1 - s ^ 2)] < lognormalValue ![1] ![s] ![1] := by
  refine (lognormal_minimum 1 s 1 hs one_pos).2 ?_
  intro h
  rw [eq_comm, Real.exp_eq_one_iff, sub_eq_zero] at h
  have : (s - 1) * (s + 1) = 0 := by linarith [h, sq s]
  rcases mul_eq_zero.1 this with h2 | h2
  · exact h1 (by linarith)
  · linarith

end Zfit.Constr
