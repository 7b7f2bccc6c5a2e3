import Verif.Loss.Props
import Mathlib.Algebra.BigOperators.Group.List.Lemmas

/-!
# Where the losses are smallest, and how events contribute

* C132: `binned_nll_minimum`
* C133: `chi2_minimum`, `chi2_minimum_expected`
* C134: `extended_yield_minimum`
* C135: `fit_range_cut_partial`; `fit_range_extended_violated`
* C136: `event_order`, `split_data`, `weights_are_copies`, `weights_scale`, `density_zero`
-/

namespace Zfit.Loss

open Zfit

variable {Θ X : Type}

/-! ### Specification -/

/-- The extended losses predict the number of events too. -/
def Kind.extended : Kind → Bool
  | .extendedUnbinnedNLL | .extendedBinnedNLL | .extendedBinnedChi2 => true
  | _ => false

/-- The models predict exactly the content of every bin of the data. -/
def Loss.Perfect (l : Loss Θ X) (θ : Θ) : Prop :=
  ∀ p ∈ l.model.zip l.data, expected l.kind.extended p.1 p.2 θ = .ok p.2.values

/-- The models predict a non-negative number of events in every bin. -/
def Loss.Physical (l : Loss Θ X) (θ : Θ) : Prop :=
  ∀ p ∈ l.model.zip l.data, ∃ ex, expected l.kind.extended p.1 p.2 θ = .ok ex ∧ ∀ x ∈ ex, 0 ≤ x

/-- The sum of the constraints. -/
def Loss.constrained (l : Loss Θ X) (θ : Θ) : ℝ := (l.constraints.map (·.value θ)).sum

/-! ### Sums -/

private theorem sumTerms_le {P : Type} (ps : List P) (f0 f : P → Except Err ℝ) (g : P → Prop)
    (h : ∀ p ∈ ps, ∃ a b, f0 p = .ok a ∧ f p = .ok b ∧ a ≤ b ∧ (a = b ↔ g p)) :
    ∃ s0 s, sumTerms (ps.map f0) = .ok s0 ∧ sumTerms (ps.map f) = .ok s ∧ s0 ≤ s ∧ (s0 = s ↔ ∀ p ∈ ps, g p) := by
  induction ps with
  | nil => exact ⟨0, 0, sumTerms_nil, sumTerms_nil, le_refl _, by simp⟩
  | cons p ps ih =>
    obtain ⟨s0, s, h1, h2, h3, h4⟩ := ih (fun q hq => h q (List.mem_cons_of_mem _ hq))
    obtain ⟨a, b, e1, e2, e3, e4⟩ := h p List.mem_cons_self
    refine ⟨a + s0, b + s, ?_, ?_, add_le_add e3 h3, ?_⟩
    · rw [List.map_cons, sumTerms_cons, e1, h1]; rfl
    · rw [List.map_cons, sumTerms_cons, e2, h2]; rfl
    · rw [List.forall_mem_cons, ← e4, ← h4]
      constructor
      · intro h
        constructor <;> linarith
      · rintro ⟨h, h'⟩
        rw [h, h']

private theorem zip_sum_le (f : ℝ → ℝ → ℝ) (ex vs : List ℝ) (hl : ex.length = vs.length)
    (h : ∀ p v, p ∈ ex → v ∈ vs → f v v ≤ f p v ∧ (f v v = f p v ↔ p = v)) :
    (List.zipWith f vs vs).sum ≤ (List.zipWith f ex vs).sum ∧
    ((List.zipWith f vs vs).sum = (List.zipWith f ex vs).sum ↔ ex = vs) := by
  induction vs generalizing ex with
  | nil =>
    have : ex = [] := List.eq_nil_of_length_eq_zero hl
    simp [this]
  | cons v vs ih =>
    cases ex with
    | nil => simp at hl
    | cons p ex =>
      obtain ⟨h1, h2⟩ := ih ex (by simpa using hl) (fun p v hp hv => h p v (List.mem_cons_of_mem _ hp) (List.mem_cons_of_mem _ hv))
      obtain ⟨h3, h4⟩ := h p v List.mem_cons_self List.mem_cons_self
      simp only [List.zipWith_cons_cons, List.sum_cons, List.cons.injEq, ← h2, ← h4]
      refine ⟨add_le_add h3 h1, ?_⟩
      constructor
      · intro h
        constructor <;> linarith
      · rintro ⟨h, h'⟩
        rw [h, h']

/-! ### C132 -/

/-- `m - n log m` is smallest at `m = n`, and only there. -/
private theorem poisson_min {m n : ℝ} (hm : 0 < m) (hn : 0 < n) :
    n - Real.log n * n ≤ m - Real.log m * n ∧ (n - Real.log n * n = m - Real.log m * n ↔ m = n) := by
  by_cases h : m = n
  · rw [h]
    simp
  · have hne : m / n ≠ 1 := by
      intro h'
      exact h ((div_eq_one_iff_eq hn.ne').1 h')
    have h1 := Real.log_lt_sub_one_of_pos (div_pos hm hn) hne
    rw [Real.log_div hm.ne' hn.ne'] at h1
    have h2 : (Real.log m - Real.log n) * n < (m / n - 1) * n := mul_lt_mul_of_pos_right h1 hn
    have h3 : (m / n - 1) * n = m - n := by field_simp
    rw [h3] at h2
    have h4 : n - Real.log n * n < m - Real.log m * n := by linarith [sub_mul (Real.log m) (Real.log n) n]
    exact ⟨h4.le, fun h' => absurd h' h4.ne, fun h' => absurd h' h⟩

private theorem poissonBin_min {p v : ℝ} (hp : 0 ≤ p) (hv : 0 ≤ v) :
    poissonBin v v none ≤ poissonBin p v none ∧ (poissonBin v v none = poissonBin p v none ↔ p = v) := by
  have he := eps_pos
  obtain ⟨h1, h2⟩ := poisson_min (m := p + eps) (n := v + eps) (by linarith) (by linarith)
  unfold poissonBin addOffset logPoissonLoss
  simp only [Option.isNone_none, if_true]
  rw [Real.exp_log (by linarith), Real.exp_log (by linarith)]
  refine ⟨by linarith, ?_⟩
  constructor
  · intro h
    have := h2.1 (by linarith)
    linarith
  · rintro rfl
    rfl

/-- C132: among all non-negative predictions the (extended or not extended) binned likelihood is smallest, apart from the
constraints, where the models predict exactly the content of every bin, and only there. -/
theorem binned_nll_minimum (l : Loss Θ X) (hk : l.kind = .binnedNLL ∨ l.kind = .extendedBinnedNLL) (hb : l.BinsMatch)
    (hd : ∀ d ∈ l.data, ∀ v ∈ d.values, 0 ≤ v) (θ₀ θ : Θ) (h₀ : l.Perfect θ₀) (h : l.Physical θ) :
    ∃ v₀ v, l.HasValue θ₀ v₀ ∧ l.HasValue θ v ∧ v₀ - l.constrained θ₀ ≤ v - l.constrained θ ∧
      (v₀ - l.constrained θ₀ = v - l.constrained θ ↔ l.Perfect θ) := by
  have hkb : l.kind.binned = true := by rcases hk with hk | hk <;> rw [hk] <;> rfl
  have key : ∀ ext, l.kind.extended = ext → ∀ p ∈ l.model.zip l.data, ∃ a b, poissonTerm ext p.1 p.2 θ₀ none = .ok a ∧
      poissonTerm ext p.1 p.2 θ none = .ok b ∧ a ≤ b ∧ (a = b ↔ expected ext p.1 p.2 θ = .ok p.2.values) := by
    intro ext hext p hp
    have hcm := hb hkb p hp
    have e0 := h₀ p hp
    obtain ⟨ex, e1, hpos⟩ := h p hp
    rw [hext] at e0 e1
    have hlen := expected_length hcm ext θ ex e1
    refine ⟨(List.zipWith (fun p v => poissonBin p v none) p.2.values p.2.values).sum,
      (List.zipWith (fun p v => poissonBin p v none) ex p.2.values).sum, by
      simp only [poissonTerm, e0, except_bind_ok, except_pure], by
      simp only [poissonTerm, e1, except_bind_ok, except_pure], ?_⟩
    have := zip_sum_le (fun p v => poissonBin p v none) ex p.2.values hlen (fun q v hq hv =>
      poissonBin_min (hpos q hq) (hd p.2 (List.of_mem_zip hp).2 v hv))
    rw [e1, Except.ok.injEq]
    exact this
  have hchk : l.checkChi2 = .ok () := by
    unfold Loss.checkChi2
    rcases hk with hk | hk <;> simp [hk]
  rcases hk with hk | hk
  · obtain ⟨s0, s, h1, h2, h3, h4⟩ := sumTerms_le (l.model.zip l.data) _ _ _ (key false (by rw [hk]; rfl))
    refine ⟨s0 + l.constrained θ₀, s + l.constrained θ, hasValue_of hb hchk ?_, hasValue_of hb hchk ?_, by linarith, ?_⟩
    · simp only [Loss.lossFunc, hk, h1, except_bind_ok, except_pure, constraintSum, Loss.constrained]
      simp
    · simp only [Loss.lossFunc, hk, h2, except_bind_ok, except_pure, constraintSum, Loss.constrained]
      simp
    · rw [add_sub_cancel_right, add_sub_cancel_right, h4]
      unfold Loss.Perfect
      rw [hk]
      rfl
  · obtain ⟨s0, s, h1, h2, h3, h4⟩ := sumTerms_le (l.model.zip l.data) _ _ _ (key true (by rw [hk]; rfl))
    refine ⟨s0 + l.constrained θ₀, s + l.constrained θ, hasValue_of hb hchk ?_, hasValue_of hb hchk ?_, by linarith, ?_⟩
    · simp only [Loss.lossFunc, hk, h1, except_bind_ok, except_pure, constraintSum, Loss.constrained]
      simp
    · simp only [Loss.lossFunc, hk, h2, except_bind_ok, except_pure, constraintSum, Loss.constrained]
      simp
    · rw [add_sub_cancel_right, add_sub_cancel_right, h4]
      unfold Loss.Perfect
      rw [hk]
      rfl

/-- A histogram of two bins and a model with the expected counts as parameters. -/
noncomputable def exBins (k : Kind) : Loss (ℝ × ℝ) Unit :=
  ⟨k, [⟨fun _ _ _ => 1, some fun θ => θ.1 + θ.2, fun θ => [θ.1 / (θ.1 + θ.2), θ.2 / (θ.1 + θ.2)], some fun θ => [θ.1, θ.2]⟩],
    [⟨[], none, 4, 4, [3, 1], some [3, 1]⟩], [none], [], {}⟩

example : (exBins .extendedBinnedNLL).Perfect (3, 1) ∧ (exBins .extendedBinnedNLL).Physical (1, 2) ∧
    (exBins .binnedNLL).Perfect (6, 2) ∧ (exBins .extendedBinnedNLL).BinsMatch ∧ ¬ (exBins .extendedBinnedNLL).Perfect (1, 2) := by
  refine ⟨?_, ?_, ?_, ?_, ?_⟩
  · simp [Loss.Perfect, exBins, expected, Kind.extended]
  · simp [Loss.Physical, exBins, expected, Kind.extended]
  · simp [Loss.Perfect, exBins, expected, Kind.extended]
    norm_num
  · intro _
    simp [exBins, CountsMatch]
  · simp [Loss.Perfect, exBins, expected, Kind.extended]

/-! ### C133 -/

private theorem chi2_zip (ex vs ws : List ℝ) (hl : ex.length = vs.length) (hw : ws.length = vs.length) (hpos : ∀ w ∈ ws, 0 ≤ w) :
    0 ≤ ((List.zip ex (List.zip vs ws)).map (fun t => chi2Bin t.1 t.2.1 t.2.2 none)).sum ∧
    (0 = ((List.zip ex (List.zip vs ws)).map (fun t => chi2Bin t.1 t.2.1 t.2.2 none)).sum ↔
      ∀ (i : Nat) p v w, ex[i]? = some p → vs[i]? = some v → ws[i]? = some w → 0 < w → p = v) := by
  induction vs generalizing ex ws with
  | nil =>
    have : ex = [] := List.eq_nil_of_length_eq_zero hl
    simp [this]
  | cons v vs ih =>
    cases ex with
    | nil => simp at hl
    | cons p ex =>
      cases ws with
      | nil => simp at hw
      | cons w ws =>
        obtain ⟨h1, h2⟩ := ih ex ws (by simpa using hl) (by simpa using hw) (fun x hx => hpos x (List.mem_cons_of_mem _ hx))
        have hw0 := hpos w List.mem_cons_self
        have h3 : 0 ≤ chi2Bin p v w none := by
          unfold chi2Bin addOffset
          positivity
        have h4 : chi2Bin p v w none = 0 ↔ (0 < w → p = v) := by
          show (p - v) ^ 2 * w⁻¹ = 0 ↔ _
          rw [mul_eq_zero, inv_eq_zero, sq_eq_zero_iff, sub_eq_zero]
          constructor
          · rintro (h | h) hw'
            · exact h
            · exact absurd h hw'.ne'
          · intro h
            rcases hw0.lt_or_eq with hw' | hw'
            · exact Or.inl (h hw')
            · exact Or.inr hw'.symm
        simp only [List.zip_cons_cons, List.map_cons, List.sum_cons]
        refine ⟨add_nonneg h3 h1, ?_⟩
        constructor
        · intro h i p' v' w' hp hv hw' hpos'
          have hz : chi2Bin p v w none = 0 := by linarith
          cases i with
          | zero =>
            simp only [List.getElem?_cons_zero, Option.some.injEq] at hp hv hw'
            rw [← hp, ← hv]
            exact h4.1 hz (by rw [hw']; exact hpos')
          | succ i =>
            simp only [List.getElem?_cons_succ] at hp hv hw'
            exact h2.1 (by linarith) i p' v' w' hp hv hw' hpos'
        · intro h
          have ha : chi2Bin p v w none = 0 := h4.2 (h 0 p v w rfl rfl rfl)
          have hb := h2.2 (fun i p' v' w' hp hv hw' => h (i + 1) p' v' w' (by simpa using hp) (by simpa using hv) (by simpa using hw'))
          rw [ha, ← hb, add_zero]

private theorem sumTerms_nonneg {P : Type} (ps : List P) (f : P → Except Err ℝ) (g : P → Prop)
    (h : ∀ p ∈ ps, ∃ b, f p = .ok b ∧ 0 ≤ b ∧ (0 = b ↔ g p)) :
    ∃ s, sumTerms (ps.map f) = .ok s ∧ 0 ≤ s ∧ (0 = s ↔ ∀ p ∈ ps, g p) := by
  obtain ⟨s0, s, h1, h2, h3, h4⟩ := sumTerms_le ps (fun _ => .ok 0) f g (fun p hp => by
    obtain ⟨b, h⟩ := h p hp
    exact ⟨0, b, rfl, h⟩)
  have : s0 = 0 := by
    clear h2 h3 h4 h
    induction ps generalizing s0 with
    | nil =>
      rw [List.map_nil, sumTerms_nil] at h1
      exact (Except.ok.inj h1).symm
    | cons p ps ih =>
      rw [List.map_cons, sumTerms_cons] at h1
      obtain ⟨y, hy, h1⟩ := bind_eq_ok.1 h1
      obtain ⟨z, hz, h1⟩ := bind_eq_ok.1 h1
      have hz0 := ih z hz
      have hy0 := Except.ok.inj hy
      rw [except_pure] at h1
      have := Except.ok.inj h1
      linarith
  subst this
  exact ⟨s, h2, h3, h4⟩

/-- C133: a chi2 with variances from the data is, apart from the constraints, never negative, and zero exactly if the models
predict the content of every bin whose variance is not zero. -/
theorem chi2_minimum (l : Loss Θ X) (hk : l.kind.chi2 = true) (hb : l.BinsMatch) (he : l.opts.errors = .data)
    (hi : l.opts.ignoreEmpty = true) (hv : ∀ d ∈ l.data, ∃ ws, d.variances = some ws ∧ ∀ w ∈ ws, 0 ≤ w) (θ : Θ)
    (h : ∀ p ∈ l.model.zip l.data, ∃ ex, expected l.kind.extended p.1 p.2 θ = .ok ex) :
    ∃ v, l.HasValue θ v ∧ 0 ≤ v - l.constrained θ ∧
      (0 = v - l.constrained θ ↔ ∀ p ∈ l.model.zip l.data, ∀ ex ws, expected l.kind.extended p.1 p.2 θ = .ok ex →
        p.2.variances = some ws → ∀ (i : Nat) m n w, ex[i]? = some m → p.2.values[i]? = some n → ws[i]? = some w → 0 < w → m = n) := by
  have hkb : l.kind.binned = true := by cases hkk : l.kind <;> simp_all [Kind.chi2, Kind.binned]
  have key : ∀ ext, l.kind.extended = ext → ∀ p ∈ l.model.zip l.data, ∃ b, chi2Term ext l.opts.errors p.1 p.2 θ none = .ok b ∧
      0 ≤ b ∧ (0 = b ↔ ∀ ex ws, expected l.kind.extended p.1 p.2 θ = .ok ex →
        p.2.variances = some ws → ∀ (i : Nat) m n w, ex[i]? = some m → p.2.values[i]? = some n → ws[i]? = some w → 0 < w → m = n) := by
    intro ext hext p hp
    have hcm := hb hkb p hp
    obtain ⟨ex, e1⟩ := h p hp
    obtain ⟨ws, e2, hws⟩ := hv p.2 (List.of_mem_zip hp).2
    rw [hext] at e1
    have hlen := expected_length hcm ext θ ex e1
    obtain ⟨h1, h2⟩ := chi2_zip ex p.2.values ws hlen (hcm.2.2 ws e2) hws
    refine ⟨((List.zip ex (List.zip p.2.values ws)).map (fun t => chi2Bin t.1 t.2.1 t.2.2 none)).sum, by
      simp only [chi2Term, e1, he, variancesOf, e2, except_bind_ok, except_pure], h1, ?_⟩
    rw [h2, hext, e1]
    constructor
    · intro h ex' ws' hex hws' i m n w hm hn hw
      rw [Except.ok.injEq] at hex
      rw [e2, Option.some.injEq] at hws'
      subst hex; subst hws'
      exact h i m n w hm hn hw
    · intro h
      exact h ex ws rfl e2
  have hchk : l.checkChi2 = .ok () := by
    unfold Loss.checkChi2
    have : l.data.any (fun d => d.variances.isNone) = false := by
      rw [List.any_eq_false]
      intro d hd
      obtain ⟨ws, hws, -⟩ := hv d hd
      simp [hws]
    cases l.kind <;> simp [this, hi]
  cases hkk : l.kind <;> simp only [hkk, Kind.chi2, Bool.false_eq_true] at hk
  · obtain ⟨s, h1, h2, h3⟩ := sumTerms_nonneg (l.model.zip l.data) _ _ (key false (by rw [hkk]; rfl))
    refine ⟨s + l.constrained θ, hasValue_of hb hchk ?_, by linarith, ?_⟩
    · simp only [Loss.lossFunc, hkk, h1, except_bind_ok, except_pure, constraintSum, Loss.constrained]
      simp
    · rw [add_sub_cancel_right, h3, hkk]
  · obtain ⟨s, h1, h2, h3⟩ := sumTerms_nonneg (l.model.zip l.data) _ _ (key true (by rw [hkk]; rfl))
    refine ⟨s + l.constrained θ, hasValue_of hb hchk ?_, by linarith, ?_⟩
    · simp only [Loss.lossFunc, hkk, h1, except_bind_ok, except_pure, constraintSum, Loss.constrained]
      simp
    · rw [add_sub_cancel_right, h3, hkk]

private theorem getElem_all_eq {ex vs : List ℝ} (hl : ex.length = vs.length)
    (h : ∀ (i : Nat) m n, ex[i]? = some m → vs[i]? = some n → m = n) : ex = vs := by
  apply List.ext_getElem hl
  intro i h1 h2
  exact h i _ _ (List.getElem?_eq_getElem h1) (List.getElem?_eq_getElem h2)

/-- C133: a chi2 with the expected variances is never negative and zero exactly if the models predict the content of
every bin. -/
theorem chi2_minimum_expected (l : Loss Θ X) (hk : l.kind.chi2 = true) (hb : l.BinsMatch) (he : l.opts.errors = .expected)
    (hv : ∀ d ∈ l.data, d.variances ≠ none) (θ : Θ) (h : l.Physical θ) :
    ∃ v, l.HasValue θ v ∧ 0 ≤ v - l.constrained θ ∧ (0 = v - l.constrained θ ↔ l.Perfect θ) := by
  have hkb : l.kind.binned = true := by cases hkk : l.kind <;> simp_all [Kind.chi2, Kind.binned]
  have key : ∀ ext, l.kind.extended = ext → ∀ p ∈ l.model.zip l.data, ∃ b, chi2Term ext l.opts.errors p.1 p.2 θ none = .ok b ∧
      0 ≤ b ∧ (0 = b ↔ expected l.kind.extended p.1 p.2 θ = .ok p.2.values) := by
    intro ext hext p hp
    have hcm := hb hkb p hp
    obtain ⟨ex, e1, hpos⟩ := h p hp
    rw [hext] at e1
    have hlen := expected_length hcm ext θ ex e1
    have hsq : ∀ w ∈ ex.map (fun p => Real.sqrt (p + eps)), 0 < w := by
      intro w hw
      obtain ⟨x, hx, rfl⟩ := List.mem_map.1 hw
      exact Real.sqrt_pos.2 (by linarith [hpos x hx, eps_pos])
    obtain ⟨h1, h2⟩ := chi2_zip ex p.2.values (ex.map (fun p => Real.sqrt (p + eps))) hlen (by simpa using hlen)
      (fun w hw => (hsq w hw).le)
    refine ⟨((List.zip ex (List.zip p.2.values (ex.map (fun p => Real.sqrt (p + eps))))).map
      (fun t => chi2Bin t.1 t.2.1 t.2.2 none)).sum, by
      simp only [chi2Term, e1, he, variancesOf, except_bind_ok, except_pure], h1, ?_⟩
    rw [h2, hext, e1, Except.ok.injEq]
    constructor
    · intro h
      refine getElem_all_eq hlen (fun i m n hm hn => h i m n (Real.sqrt (m + eps)) hm hn ?_ ?_)
      · rw [List.getElem?_map, hm]
        rfl
      · exact Real.sqrt_pos.2 (by linarith [hpos m (List.mem_of_getElem? hm), eps_pos])
    · intro h i m n w hm hn _ _
      rw [h, hn, Option.some.injEq] at hm
      exact hm.symm
  have hchk : l.checkChi2 = .ok () := by
    unfold Loss.checkChi2
    have : l.data.any (fun d => d.variances.isNone) = false := by
      rw [List.any_eq_false]
      intro d hd
      simpa using hv d hd
    cases l.kind <;> simp [this, he]
  cases hkk : l.kind <;> simp only [hkk, Kind.chi2, Bool.false_eq_true] at hk
  · obtain ⟨s, h1, h2, h3⟩ := sumTerms_nonneg (l.model.zip l.data) _ _ (key false (by rw [hkk]; rfl))
    refine ⟨s + l.constrained θ, hasValue_of hb hchk ?_, by linarith, ?_⟩
    · simp only [Loss.lossFunc, hkk, h1, except_bind_ok, except_pure, constraintSum, Loss.constrained]
      simp
    · rw [add_sub_cancel_right, h3]
      rfl
  · obtain ⟨s, h1, h2, h3⟩ := sumTerms_nonneg (l.model.zip l.data) _ _ (key true (by rw [hkk]; rfl))
    refine ⟨s + l.constrained θ, hasValue_of hb hchk ?_, by linarith, ?_⟩
    · simp only [Loss.lossFunc, hkk, h1, except_bind_ok, except_pure, constraintSum, Loss.constrained]
      simp
    · rw [add_sub_cancel_right, h3]
      rfl

example : (exBins .extendedBinnedChi2).Physical (1, 2) ∧ (exBins .extendedBinnedChi2).opts.errors = .data ∧
    ∀ d ∈ (exBins .extendedBinnedChi2).data, ∃ ws, d.variances = some ws ∧ ∀ w ∈ ws, 0 ≤ w := by
  refine ⟨?_, rfl, ?_⟩
  · simp [Loss.Physical, exBins, expected, Kind.extended]
  · simp [exBins]

/-! ### C134 -/

/-- C134: going from the unbinned to the extended likelihood, a point whose yields are the numbers of events (sums of
weights) of the datasets gains on every other point, except on those with the same yields.  So a minimum of the unbinned
likelihood with these yields is a minimum of the extended one, and at every minimum of the extended one with freely
scalable yields the yields are the numbers of events. -/
theorem extended_yield_minimum (l l' : Loss Θ X) (hk : l.kind = .unbinnedNLL) (hl' : l' = { l with kind := .extendedUnbinnedNLL })
    (hp : l.Paired) (y : Fin l.data.length → Θ → ℝ)
    (hy : ∀ i : Fin l.data.length, (l.model[i.val]'(by rw [hp.1]; exact i.isLt)).yield = some (y i))
    (hn : ∀ i : Fin l.data.length, 0 < l.data[i].samplesize) (θ₀ θ : Θ) (h₀ : ∀ i, y i θ₀ = l.data[i].samplesize)
    (hpos : ∀ i, 0 < y i θ) (v₀ v : ℝ) (hv₀ : l.HasValue θ₀ v₀) (hv : l.HasValue θ v) :
    ∃ w₀ w, l'.HasValue θ₀ w₀ ∧ l'.HasValue θ w ∧ w₀ - v₀ ≤ w - v ∧
      (w₀ - v₀ = w - v ↔ ∀ i : Fin l.data.length, y i θ = l.data[i].samplesize) := by
  refine ⟨_, _, extended_nll_value l l' hk hl' hp θ₀ v₀ hv₀ y hy (fun i => by rw [h₀ i]; exact hn i),
    extended_nll_value l l' hk hl' hp θ v hv y hy hpos, ?_⟩
  rw [add_sub_cancel_left, add_sub_cancel_left]
  have hle : ∀ i ∈ (Finset.univ : Finset (Fin l.data.length)),
      y i θ₀ - l.data[i].samplesize * Real.log (y i θ₀) + stirling l.data[i].samplesize ≤
      y i θ - l.data[i].samplesize * Real.log (y i θ) + stirling l.data[i].samplesize := by
    intro i _
    rw [h₀ i]
    have := (poisson_min (hpos i) (hn i)).1
    linarith [mul_comm (Real.log (l.data[i].samplesize)) l.data[i].samplesize,
      mul_comm (Real.log (y i θ)) l.data[i].samplesize]
  refine ⟨Finset.sum_le_sum hle, ?_⟩
  rw [Finset.sum_eq_sum_iff_of_le hle]
  constructor
  · intro h i
    have := h i (Finset.mem_univ i)
    rw [h₀ i] at this
    apply (poisson_min (hpos i) (hn i)).2.1
    linarith [mul_comm (Real.log (l.data[i].samplesize)) l.data[i].samplesize,
      mul_comm (Real.log (y i θ)) l.data[i].samplesize]
  · intro h i _
    rw [h₀ i, h i]

example : ∃ (l : Loss ℝ Unit) (hp : l.Paired) (y : Fin l.data.length → ℝ → ℝ), l.kind = .unbinnedNLL ∧
    (∀ i : Fin l.data.length, (l.model[i.val]'(by rw [hp.1]; exact i.isLt)).yield = some (y i)) ∧
    (∀ i : Fin l.data.length, 0 < l.data[i].samplesize) ∧ (∀ i, y i 2 = l.data[i].samplesize) ∧ ∃ v, l.HasValue 2 v :=
  ⟨⟨.unbinnedNLL, [⟨fun _ _ _ => 1, some id, fun _ => [], none⟩], [⟨[(), ()], none, 2, 2, [], none⟩], [none], [], {}⟩,
    ⟨rfl, rfl⟩, fun _ => id, rfl, by simp, by simp, by simp,
    _, hasValue_of (by intro h; simp [Kind.binned] at h) (by simp [Loss.checkChi2]) rfl⟩

/-! ### C135 -/

/-- The dataset with only the events inside of a range. -/
def Dat.IsCut (d d' : Dat X) (r : Range X) : Prop :=
  d'.events = d.events.filter (fun e => r e.1) ∧ d'.samplesize = ((d.events.filter (fun e => r e.1)).map (·.2)).sum

/-- The number of weights is that of the events. -/
def Dat.Weighted (d : Dat X) : Prop := ∀ w, d.weights = some w → w.length = d.points.length

/-- The loss for one model and one dataset. -/
def single (k : Kind) (m : Mod Θ X) (d : Dat X) (r : Option (Range X)) (cs : List (Constr Θ)) (o : Opts) : Loss Θ X :=
  ⟨k, [m], [d], [r], cs, o⟩

private theorem single_nll (m : Mod Θ X) (d : Dat X) (hd : d.Weighted) (r : Option (Range X)) (cs : List (Constr Θ)) (o : Opts) (θ : Θ) :
    (single .unbinnedNLL m d r cs o).HasValue θ
      (-((d.events.filter (inside r)).map (fun e => e.2 * Real.log (m.pdf r θ e.1 + eps))).sum + (cs.map (·.value θ)).sum) := by
  apply hasValue_of
  · intro h; simp [Kind.binned, single] at h
  · simp [Loss.checkChi2, single]
  · simp [Loss.lossFunc, single, constraintSum, nllTerm_value m d r θ hd]

/-- C135, the proved part: in an unbinned likelihood a fit range is the same as cutting the data and normalising the model
to it. Missing from the full claim: the cases of `fit_range_extended_violated`. -/
theorem fit_range_cut_partial (m m' : Mod Θ X) (d d' : Dat X) (hd : d.Weighted) (hd' : d'.Weighted) (r : Range X)
    (hm : ∀ θ x, m'.pdf none θ x = m.pdf (some r) θ x) (hc : d.IsCut d' r) (cs : List (Constr Θ)) (o o' : Opts) (θ : Θ) :
    ∃ v, (single .unbinnedNLL m d (some r) cs o).HasValue θ v ∧ (single .unbinnedNLL m' d' none cs o').HasValue θ v := by
  refine ⟨_, single_nll m d hd (some r) cs o θ, ?_⟩
  have := single_nll m' d' hd' none cs o' θ
  rw [hc.1] at this
  simp only [hm] at this
  convert this using 5
  rw [List.filter_filter]
  rfl

private theorem single_ext (m : Mod Θ X) (y : Θ → ℝ) (hy : m.yield = some y) (d : Dat X) (r : Option (Range X))
    (cs : List (Constr Θ)) (o : Opts) (θ : Θ) (hpos : 0 < y θ) (v : ℝ) (hv : (single .unbinnedNLL m d r cs o).HasValue θ v) :
    (single .extendedUnbinnedNLL m d r cs o).HasValue θ
      (v + (y θ - d.samplesize * Real.log (y θ) + stirling d.samplesize)) := by
  have hv' := lossFunc_of_value (hv {})
  simp only [Loss.lossFunc, single, Except.ok.injEq] at hv'
  apply hasValue_of
  · intro h; simp [Kind.binned, single] at h
  · simp [Loss.checkChi2, single]
  · simp only [Loss.lossFunc, single, List.zip_cons_cons, List.map_cons, List.zip_nil_left, List.map_nil, extTerm, hy,
      sumTerms_cons, sumTerms_nil, except_bind_ok, except_pure, addOffset, logPoissonLoss, Option.isNone_none, if_true]
    rw [Real.exp_log hpos, ← hv']
    congr 1
    simp only [constraintSum, List.zip_cons_cons, List.map_cons, List.zip_nil_left, List.map_nil]
    ring

/-- C135 fails for extended likelihoods: the number of events is that without the fit range.  Whenever events are
outside, the yield that is the number of events inside is worse than the one that is the number of all events, while for
the cut data it is better. -/
theorem fit_range_extended_violated (m m' : Mod Θ X) (y : Θ → ℝ) (hy : m.yield = some y) (hy' : m'.yield = some y)
    (d d' : Dat X) (hd : d.Weighted) (hd' : d'.Weighted) (r : Range X)
    (hm : ∀ θ x, m'.pdf none θ x = m.pdf (some r) θ x) (hc : d.IsCut d' r) (hpos : 0 < d'.samplesize)
    (hlt : d'.samplesize < d.samplesize) (o : Opts) (θin θall : Θ) (hshape : ∀ x, m.pdf (some r) θin x = m.pdf (some r) θall x)
    (hin : y θin = d'.samplesize) (hall : y θall = d.samplesize) :
    (∃ vin vall, (single .extendedUnbinnedNLL m d (some r) [] o).HasValue θin vin ∧
      (single .extendedUnbinnedNLL m d (some r) [] o).HasValue θall vall ∧ vall < vin) ∧
    (∃ vin vall, (single .extendedUnbinnedNLL m' d' none [] o).HasValue θin vin ∧
      (single .extendedUnbinnedNLL m' d' none [] o).HasValue θall vall ∧ vin < vall) := by
  have hpos' : 0 < d.samplesize := hpos.trans hlt
  constructor
  · have h1 := single_ext m y hy d (some r) [] o θin (by rw [hin]; exact hpos) _ (single_nll m d hd (some r) [] o θin)
    have h2 := single_ext m y hy d (some r) [] o θall (by rw [hall]; exact hpos') _ (single_nll m d hd (some r) [] o θall)
    refine ⟨_, _, h1, h2, ?_⟩
    simp only [hshape, hin, hall, List.map_nil]
    have hmin := poisson_min hpos hpos'
    have hlt' := lt_of_le_of_ne hmin.1 (fun h => hlt.ne (hmin.2.1 h))
    linarith [mul_comm (Real.log d.samplesize) d.samplesize, mul_comm (Real.log d'.samplesize) d.samplesize]
  · have h1 := single_ext m' y hy' d' none [] o θin (by rw [hin]; exact hpos) _ (single_nll m' d' hd' none [] o θin)
    have h2 := single_ext m' y hy' d' none [] o θall (by rw [hall]; exact hpos') _ (single_nll m' d' hd' none [] o θall)
    refine ⟨_, _, h1, h2, ?_⟩
    simp only [hm, hshape, hin, hall, List.map_nil]
    have hmin := poisson_min hpos' hpos
    have hlt' := lt_of_le_of_ne hmin.1 (fun h => hlt.ne' (hmin.2.1 h))
    linarith [mul_comm (Real.log d.samplesize) d'.samplesize, mul_comm (Real.log d'.samplesize) d'.samplesize]

example : ∃ (d d' : Dat ℕ), d.IsCut d' (fun n => decide (n < 5)) ∧ d.Weighted ∧ d'.Weighted ∧ 0 < d'.samplesize ∧
    d'.samplesize < d.samplesize :=
  ⟨⟨[1, 2, 7], none, 3, 3, [], none⟩, ⟨[1, 2], none, 2, 2, [], none⟩, ⟨by simp [Dat.events], by simp [Dat.events]; norm_num⟩,
    by simp [Dat.Weighted], by simp [Dat.Weighted], by norm_num, by norm_num⟩

/-! ### C136 -/

/-- C136: the order of the events does not matter, as long as each keeps its weight. -/
theorem event_order (m : Mod Θ X) (d d' : Dat X) (hd : d.Weighted) (hd' : d'.Weighted) (h : d.events.Perm d'.events)
    (r : Option (Range X)) (cs : List (Constr Θ)) (o o' : Opts) (θ : Θ) :
    ∃ v, (single .unbinnedNLL m d r cs o).HasValue θ v ∧ (single .unbinnedNLL m d' r cs o').HasValue θ v := by
  refine ⟨_, single_nll m d hd r cs o θ, ?_⟩
  have := single_nll m d' hd' r cs o' θ
  rw [((h.filter (inside r)).map _).sum_eq]
  exact this

/-- C136: a simultaneous fit of one model to the two parts of a dataset is the fit to the whole. -/
theorem split_data (m : Mod Θ X) (d d₁ d₂ : Dat X) (hd : d.Weighted) (hd₁ : d₁.Weighted) (hd₂ : d₂.Weighted)
    (h : d.events.Perm (d₁.events ++ d₂.events)) (r : Option (Range X)) (cs : List (Constr Θ)) (o o' : Opts) (θ : Θ) :
    ∃ v, (single .unbinnedNLL m d r cs o).HasValue θ v ∧
      (⟨.unbinnedNLL, [m, m], [d₁, d₂], [r, r], cs, o'⟩ : Loss Θ X).HasValue θ v := by
  refine ⟨_, single_nll m d hd r cs o θ, ?_⟩
  apply hasValue_of
  · intro h; simp [Kind.binned] at h
  · simp [Loss.checkChi2]
  · rw [((h.filter (inside r)).map _).sum_eq, List.filter_append, List.map_append, List.sum_append]
    simp only [Loss.lossFunc, constraintSum, List.zip_cons_cons, List.map_cons, List.zip_nil_left, List.map_nil, List.sum_cons,
      List.sum_nil, nllTerm_value m d₁ r θ hd₁, nllTerm_value m d₂ r θ hd₂]
    congr 1
    ring

/-- C136: an event with the weight `k` counts as `k` events. -/
theorem weights_are_copies (m : Mod Θ X) (points : List X) (ks : List ℕ) (hl : ks.length = points.length) (n n' a a' : ℝ)
    (r : Option (Range X)) (cs : List (Constr Θ)) (o o' : Opts) (θ : Θ) :
    ∃ v, (single .unbinnedNLL m ⟨points, some (ks.map (fun k : ℕ => (k : ℝ))), n, a, [], none⟩ r cs o).HasValue θ v ∧
      (single .unbinnedNLL m ⟨(points.zip ks).flatMap (fun p => List.replicate p.2 p.1), none, n', a', [], none⟩ r cs o').HasValue θ v := by
  refine ⟨_, single_nll m _ (by
    intro w hw
    simp only [Option.some.injEq] at hw
    rw [← hw]
    simpa using hl) r cs o θ, ?_⟩
  have := single_nll m ⟨(points.zip ks).flatMap (fun p => List.replicate p.2 p.1), none, n', a', [], none⟩
    (by intro w hw; simp at hw) r cs o' θ
  convert this using 3
  simp only [Dat.events]
  clear this
  induction points generalizing ks with
  | nil => simp
  | cons x xs ih =>
    cases ks with
    | nil => simp at hl
    | cons k ks =>
      simp only [List.map_cons, List.zip_cons_cons, List.flatMap_cons, List.map_append, List.filter_append, List.sum_append,
        List.map_replicate]
      rw [← ih ks (by simpa using hl), List.filter_cons]
      have hins : ∀ w w' : ℝ, inside r (x, w) = inside r (x, w') := fun _ _ => by cases r <;> rfl
      by_cases hx : inside r (x, (1 : ℝ)) = true
      · have hf : (List.replicate k (x, (1 : ℝ))).filter (inside r) = List.replicate k (x, 1) :=
          List.filter_eq_self.2 (fun a ha => by rw [List.eq_of_mem_replicate ha]; exact hx)
        rw [if_pos (by rw [hins _ 1]; exact hx), List.map_cons, List.sum_cons, hf, List.map_replicate, List.sum_replicate]
        simp
      · have hf : (List.replicate k (x, (1 : ℝ))).filter (inside r) = [] :=
          List.filter_eq_nil_iff.2 (fun a ha => by rw [List.eq_of_mem_replicate ha]; exact hx)
        rw [if_neg (by rw [hins _ 1]; exact hx), hf]
        simp

/-- C136: multiplying all weights by a number multiplies the likelihood, apart from the constraints. -/
theorem weights_scale (m : Mod Θ X) (points : List X) (w : List ℝ) (hl : w.length = points.length) (c n n' a a' : ℝ)
    (r : Option (Range X)) (cs : List (Constr Θ)) (o o' : Opts) (θ : Θ) :
    ∃ v, (single .unbinnedNLL m ⟨points, some w, n, a, [], none⟩ r cs o).HasValue θ (v + (cs.map (·.value θ)).sum) ∧
      (single .unbinnedNLL m ⟨points, some (w.map (c * ·)), n', a', [], none⟩ r cs o').HasValue θ (c * v + (cs.map (·.value θ)).sum) := by
  refine ⟨_, single_nll m _ (by
    intro u hu
    simp only [Option.some.injEq] at hu
    rw [← hu]
    exact hl) r cs o θ, ?_⟩
  have := single_nll m ⟨points, some (w.map (c * ·)), n', a', [], none⟩ (by
    intro u hu
    simp only [Option.some.injEq] at hu
    rw [← hu]
    simpa using hl) r cs o' θ
  convert this using 2
  simp only [Dat.events]
  rw [mul_neg, neg_inj]
  clear this
  have hins : ∀ (x : X) (w w' : ℝ), inside r (x, w) = inside r (x, w') := fun _ _ _ => by cases r <;> rfl
  induction points generalizing w with
  | nil => simp
  | cons x xs ih =>
    cases w with
    | nil => simp at hl
    | cons w ws =>
      have := ih ws (by simpa using hl)
      simp only [List.map_cons, List.zip_cons_cons, List.filter_cons, hins x (c * w) w]
      split
      · simp only [List.map_cons, List.sum_cons]
        rw [← this]
        ring
      · exact this

/-- C136: every event contributes a finite amount: where the density is `p > 0` it is that of the logarithm within
`1e-307 / p`, and where the density is zero it is the weight times `307 log 10`. -/
theorem density_zero (m : Mod Θ X) (x : X) (w n a : ℝ) (r : Option (Range X)) (hx : inside r (x, w) = true)
    (cs : List (Constr Θ)) (o : Opts) (θ : Θ) :
    (m.pdf r θ x = 0 → (single .unbinnedNLL m ⟨[x], some [w], n, a, [], none⟩ r cs o).HasValue θ
      (w * (307 * Real.log 10) + (cs.map (·.value θ)).sum)) ∧
    (0 < m.pdf r θ x → ∃ δ, 0 ≤ δ ∧ δ ≤ eps / m.pdf r θ x ∧
      (single .unbinnedNLL m ⟨[x], some [w], n, a, [], none⟩ r cs o).HasValue θ
      (-w * (Real.log (m.pdf r θ x) + δ) + (cs.map (·.value θ)).sum)) := by
  have h := single_nll m ⟨[x], some [w], n, a, [], none⟩ (by simp [Dat.Weighted]) r cs o θ
  simp only [Dat.events, List.zip_cons_cons, List.zip_nil_left, List.filter_cons, hx, if_true, List.filter_nil, List.map_cons,
    List.map_nil, List.sum_cons, List.sum_nil, add_zero] at h
  constructor
  · intro h0
    rw [h0, zero_add] at h
    convert h using 2
    unfold eps
    rw [Real.log_zpow]
    push_cast
    ring
  · intro hpos
    refine ⟨Real.log (m.pdf r θ x + eps) - Real.log (m.pdf r θ x), ?_, ?_, ?_⟩
    · have := Real.log_le_log hpos (by linarith [eps_pos] : m.pdf r θ x ≤ m.pdf r θ x + eps)
      linarith
    · rw [← Real.log_div (by linarith [eps_pos]) hpos.ne']
      have h1 := Real.log_le_sub_one_of_pos (div_pos (by linarith [eps_pos] : 0 < m.pdf r θ x + eps) hpos)
      have h2 : (m.pdf r θ x + eps) / m.pdf r θ x - 1 = eps / m.pdf r θ x := by field_simp; ring
      linarith
    · convert h using 2
      ring

end Zfit.Loss
