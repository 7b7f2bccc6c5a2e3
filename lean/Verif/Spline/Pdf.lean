import Verif.Spline.Definite
import Mathlib.Data.List.NodupEquivFin

/-! C90: the templates of a morphing PDF without the technical hypothesis, and in any order; C91: `SplinePDF`. -/

namespace Zfit.Spline

open Matrix MeasureTheory

/-! ### The order of the points does not matter -/

section

variable {ι ι' κ : Type} [Fintype ι] [DecidableEq ι] [Fintype ι'] [DecidableEq ι'] [Fintype κ] [DecidableEq κ]

theorem lhs_reindex (e : ι ≃ ι') (c : ι' → κ → ℝ) (order : ℕ) : (lhs (c ∘ e) order 0).det = (lhs c order 0).det := by
  have : lhs (c ∘ e) order 0 = (lhs c order 0).submatrix (Equiv.sumCongr e (Equiv.refl _)) (Equiv.sumCongr e (Equiv.refl _)) := by
    ext i j
    rcases i with i | i <;> rcases j with j | j <;> simp [lhs, matrixA, matrixB]
  rw [this, Matrix.det_submatrix_equiv_self]

theorem interpolate_reindex (e : ι ≃ ι') (c : ι' → κ → ℝ) (f : ι' → ℝ) (x : κ → ℝ) (order : ℕ) (hu : IsUnit (lhs c order 0).det) :
    interpolate (c ∘ e) (f ∘ e) x order = interpolate c f x order := by
  obtain ⟨w, v, hs, h1, h2⟩ := solve_some c f order 0 hu
  rw [interpolate_of (c ∘ e) (f ∘ e) x order 0 (by rw [lhs_reindex]; exact hu) (w ∘ e) v ?_ ?_, interpolate_of c f x order 0 hu w v h1 h2]
  · unfold applyInterpolation
    simp only [Function.comp]
    rw [Equiv.sum_comp e fun i => phi order (sqDist x (c i)) * w i]
  · funext i
    have := congrFun h1 (e i)
    simp only [Pi.add_apply, Matrix.mulVec, dotProduct, matrixA, matrixB, gt_iff_lt, lt_irrefl, if_false, Matrix.of_apply, Function.comp] at this ⊢
    rw [← this, Equiv.sum_comp e fun j => phi order (sqDist (c (e i)) (c j)) * w j]
  · funext k
    have := congrFun h2 k
    simp only [Matrix.mulVec, dotProduct, matrixB, Matrix.transpose_apply, Matrix.of_apply, Function.comp, Pi.zero_apply] at this ⊢
    rw [← this]
    exact Equiv.sum_comp e fun i => Sum.elim (c i) (fun _ => 1) k * w i

end

variable {α β : Type}

/-- Lists with the same elements, all different, are a renumbering of each other. -/
theorem exists_renumber (l l' : List α) (hp : l.Perm l') (hn : l.Nodup) : ∃ e : Fin l.length ≃ Fin l'.length, ∀ i, l.get i = l'.get (e i) := by
  classical
  refine ⟨(List.Nodup.getEquiv l hn).trans ((Equiv.subtypeEquivRight fun x => hp.mem_iff).trans (List.Nodup.getEquiv l' (hp.nodup_iff.1 hn)).symm), fun i => ?_⟩
  have := (List.Nodup.getEquiv l' (hp.nodup_iff.1 hn)).apply_symm_apply ((Equiv.subtypeEquivRight fun x => hp.mem_iff) (List.Nodup.getEquiv l hn i))
  have h2 := congrArg Subtype.val this
  simpa using h2.symm

/-- C90. The order in which the templates are given does not matter. -/
theorem morph_order_irrelevant (l l' : List (ℝ × (β → ℝ))) (hp : l.Perm l') (hn : (l.map Prod.fst).Nodup) (alpha : ℝ) : morph l alpha = morph l' alpha := by
  obtain ⟨e, he⟩ := exists_renumber l l' hp hn.of_map
  have hpts : points l = points l' ∘ e := by
    funext i u
    simp only [points, Function.comp, he]
  have hreg : Regular l ↔ Regular l' := by
    unfold Regular
    rw [hpts, lhs_reindex]
  by_cases hr : Regular l
  · have hr' := hreg.1 hr
    have hex : ∃ g, morph l' alpha = .ok g := by
      refine ⟨fun b => (interpolate (points l') (fun i => (l'.get i).2 b) (fun _ => alpha) 2).getD 0, (morph_iff _ _ _).2 ⟨hr', fun b => ?_⟩⟩
      obtain ⟨p, hp⟩ := interpolate_isSome (points l') (fun i => (l'.get i).2 b) (fun _ => alpha) 2 hr'
      rw [hp]
      rfl
    obtain ⟨g, hg⟩ := hex
    rw [hg]
    refine (morph_iff _ _ _).2 ⟨hr, fun b => ?_⟩
    have h2 := ((morph_iff _ _ _).1 hg).2 b
    have hv : (fun i => (l.get i).2 b) = (fun i => (l'.get i).2 b) ∘ e := by
      funext i
      simp only [Function.comp, he]
    rw [hpts, hv, interpolate_reindex e _ _ _ _ hr', h2]
  · rw [(morph_refused l alpha).2 hr, (morph_refused l' alpha).2 fun h => hr (hreg.2 h)]

/-! ### Morphing, for all templates -/

/-- The `alpha` of the templates are at least `1e-5` apart, and there are two or more. -/
structure Separated (hists : List (ℝ × α)) : Prop where
  two : 2 ≤ hists.length
  apart : hists.Pairwise fun p q => 1 / 10 ^ 5 ≤ |p.1 - q.1|

theorem Separated.regular {hists : List (ℝ × α)} (h : Separated hists) : Regular hists := regular_templates hists h.two h.apart

theorem Separated.map {γ : Type} {hists : List (ℝ × α)} (h : Separated hists) (F : α → γ) : Separated (hists.map fun p => (p.1, F p.2)) :=
  ⟨by simpa using h.two, by simpa [List.pairwise_map] using h.apart⟩

/-- C90. At the `alpha` of a template the morphed PDF has the counts, the relative counts and the yield of this template. -/
theorem morph_template (hists : List (ℝ × Template β)) (h : Separated hists) (a : ℝ) (t : Template β) (ht : (a, t) ∈ hists) :
    counts hists a = .ok t.counts ∧ relCounts hists a = .ok t.relCounts ∧ autoYield hists a = .ok t.yield := by
  refine ⟨?_, ?_, ?_⟩
  · exact morph_node _ (h.map Template.counts).regular a t.counts (List.mem_map.2 ⟨(a, t), ht, rfl⟩)
  · exact morph_node _ (h.map Template.relCounts).regular a t.relCounts (List.mem_map.2 ⟨(a, t), ht, rfl⟩)
  · have := morph_node _ (h.map (fun t (_ : Unit) => Template.yield t)).regular a (fun _ => t.yield) (List.mem_map.2 ⟨(a, t), ht, rfl⟩)
    unfold autoYield
    exact (congrArg (Except.map fun f : Unit → ℝ => f ()) this).trans rfl

/-- C90. Every `alpha` gives a histogram; its relative counts add up to one and the yield is the total of its counts. -/
theorem morph_totals [Fintype β] (hists : List (ℝ × Template β)) (h : Separated hists) (h1 : ∀ p ∈ hists, total p.2.relCounts = 1) (alpha : ℝ) :
    ∃ c r, counts hists alpha = .ok c ∧ relCounts hists alpha = .ok r ∧ total r = 1 ∧ autoYield hists alpha = .ok (total c) := by
  obtain ⟨r, hr, hr1⟩ := morph_rel_counts_total hists h.regular h1 alpha
  have hex : ∃ g, counts hists alpha = .ok g := by
    refine ⟨fun b => (interpolate (points hists) (fun i => (hists.get i).2.counts b) (fun _ => alpha) 2).getD 0, ?_⟩
    refine (morph_map hists (fun t => t.counts) alpha _).2 ⟨h.regular, fun b => ?_⟩
    obtain ⟨p, hp⟩ := interpolate_isSome (points hists) (fun i => (hists.get i).2.counts b) (fun _ => alpha) 2 h.regular
    rw [hp]
    rfl
  obtain ⟨c, hc⟩ := hex
  exact ⟨c, r, hc, hr, hr1, morph_yield_is_total hists h1 alpha c hc⟩

/-- C90. Counts that change linearly with `alpha` are continued linearly, to every `alpha`. -/
theorem morph_counts_affine (hists : List (ℝ × Template β)) (h : Separated hists) (m n : β → ℝ)
    (hl : ∀ p ∈ hists, ∀ b, p.2.counts b = m b * p.1 + n b) (alpha : ℝ) : counts hists alpha = .ok fun b => m b * alpha + n b := by
  refine morph_affine _ (h.map Template.counts).regular m n ?_ alpha
  intro p hp b
  obtain ⟨q, hq, rfl⟩ := List.mem_map.1 hp
  exact hl q hq b

/-- The hypotheses hold: five templates that are neither equal nor linear in `alpha`. -/
example : Separated [((-2 : ℝ), (⟨fun b : Bool => if b then 1 else 0, 4⟩ : Template Bool)), (-1, ⟨fun _ => 1 / 2, 1⟩), (0, ⟨fun _ => 1 / 2, 0⟩),
    (1, ⟨fun _ => 1 / 2, 1⟩), (3, ⟨fun b => if b then 0 else 1, 9⟩)] := by
  refine ⟨by simp, ?_⟩
  simp only [List.pairwise_cons, List.mem_cons, List.not_mem_nil, or_false]
  norm_num

/-! ### `SplinePDF` -/

section spline

variable {n : ℕ}

theorem spline_regular (c : Fin n → ℝ) (hn : 2 ≤ n) (hsep : ∀ i j, i ≠ j → 1 / 10 ^ 5 ≤ |c i - c j|) : IsUnit (lhs (fun i (_ : Unit) => c i) 3 0).det :=
  regular_order_three (fun i _ => c i) ⟨0, by omega⟩ ⟨1, by omega⟩ (by simp) hsep

/-- C91. With two or more bins whose centres are at least `1e-5` apart there is a density everywhere, and at the centre of every bin
it is the density of the binned PDF. -/
theorem spline_pdf_centre (c f : Fin n → ℝ) (hn : 2 ≤ n) (hsep : ∀ i j, i ≠ j → 1 / 10 ^ 5 ≤ |c i - c j|) (order : ℕ) :
    (∀ x, ∃ p, splinePdf c f order x = some p) ∧ ∀ j, splinePdf c f order (c j) = some (f j) :=
  ⟨fun _ => interpolate_isSome _ f _ 3 (spline_regular c hn hsep), fun j => interpolate_node _ f 3 (spline_regular c hn hsep) j⟩

/-- C91. If the binned density is a linear function of the bin centre, so is the density, with the same coefficients. -/
theorem spline_pdf_affine (c : Fin n → ℝ) (hn : 2 ≤ n) (hsep : ∀ i j, i ≠ j → 1 / 10 ^ 5 ≤ |c i - c j|) (m b : ℝ) (order : ℕ) (x : ℝ) :
    splinePdf c (fun i => m * c i + b) order x = some (m * x + b) := by
  have := interpolate_affine (fun i (_ : Unit) => c i) (fun _ => m) b (fun _ => x) 3 (spline_regular c hn hsep)
  simpa [splinePdf] using this

/-- C91. With the order three (the default) the extended density is the yield times the density, everywhere. -/
theorem spline_ext_pdf (c f : Fin n → ℝ) (hn : 2 ≤ n) (hsep : ∀ i j, i ≠ j → 1 / 10 ^ 5 ≤ |c i - c j|) (yield x : ℝ) :
    ∃ p, splinePdf c f 3 x = some p ∧ splineExtPdf (fun i (_ : Unit) => c i) f yield 3 (fun _ => x) = some (yield * p) := by
  obtain ⟨p, hp⟩ := (spline_pdf_centre c f hn hsep 3).1 x
  refine ⟨p, hp, ?_⟩
  have := interpolate_linear (fun i (_ : Unit) => c i) f f yield 0 (fun _ => x) 3 (spline_regular c hn hsep) p p hp hp
  simpa [splineExtPdf] using this

/-- C91. With the order two or three the extended density at the centre of every bin is the yield times the binned density. -/
theorem spline_ext_centre (c f : Fin n → ℝ) (hn : 2 ≤ n) (hsep : ∀ i j, i ≠ j → 1 / 10 ^ 5 ≤ |c i - c j|) (yield : ℝ) (order : ℕ) (ho : order = 2 ∨ order = 3)
    (j : Fin n) : splineExtPdf (fun i (_ : Unit) => c i) f yield order (fun _ => c j) = some (yield * f j) := by
  rcases ho with rfl | rfl
  · exact interpolate_node (fun i (_ : Unit) => c i) _ 2 (regular_order_two _ ⟨0, by omega⟩ ⟨1, by omega⟩ (by simp) hsep) j
  · exact interpolate_node (fun i (_ : Unit) => c i) _ 3 (spline_regular c hn hsep) j

/-- The hypotheses hold: any number of bins of width one. -/
example (n : ℕ) : ∀ i j : Fin n, i ≠ j → 1 / 10 ^ 5 ≤ |((i : ℕ) : ℝ) - ((j : ℕ) : ℝ)| := by
  intro i j h
  have h1 : ((i : ℕ) : ℤ) - ((j : ℕ) : ℤ) ≠ 0 := by
    intro h2
    exact h (Fin.ext (by omega))
  have h2 := Int.one_le_abs h1
  have h3 : (1 : ℝ) ≤ |((i : ℕ) : ℝ) - ((j : ℕ) : ℝ)| := by exact_mod_cast h2
  exact le_trans (by norm_num) h3

/-- Three bins with density, with any order and any yield, at the points `-1, 0, 1`. -/
theorem interpolate_three_peak (order : ℕ) (y x : ℝ) (h : phi order 4 - 4 * phi order 1 + 3 * phi order 0 ≠ 0) :
    interpolate three (fun i => y * ![0, 1, 0] i) (fun _ => x) order =
      some (y * (1 - (phi order ((x + 1) ^ 2) - 2 * phi order (x ^ 2) + phi order ((x - 1) ^ 2) - 2 * phi order 1 + 2 * phi order 0) /
        (phi order 4 - 4 * phi order 1 + 3 * phi order 0))) := by
  obtain ⟨d, hd⟩ : ∃ d, d = phi order 4 - 4 * phi order 1 + 3 * phi order 0 := ⟨_, rfl⟩
  rw [← hd] at h
  have hd' : -y / d * d = -y := by field_simp
  rw [interpolate_of three _ (fun _ => x) order 0 (regular_fin_three order (by rwa [← hd])) ![-y / d, 2 * y / d, -y / d]
    (Sum.elim (fun _ => 0) fun _ => y + y / d * (2 * phi order 1 - 2 * phi order 0)) ?_ ?_]
  · congr 1
    simp only [applyInterpolation, Fin.sum_univ_three, sqDist_eq, three, Fintype.sum_sum_type, Finset.univ_unique, Finset.sum_singleton, Sum.elim_inl, Sum.elim_inr]
    simp
    rw [← hd]
    ring
  · rw [three_A, three_B]
    funext i
    have e1 : y / d * d = y := by field_simp
    fin_cases i
    · simp
      linear_combination -e1 + (y / d) * hd
    · simp
      ring
    · simp
      linear_combination -e1 + (y / d) * hd
  · rw [three_Bt]
    funext k
    rcases k with ⟨⟩ | ⟨⟩
    · simp
    · simp
      ring

/-! #### Where the density is not as expected: three bins of width one with the centres `-1, 0, 1` -/

theorem phi3_of (r : ℝ) (hr : 1 / 10 ^ 5 ≤ r) : phi 3 (r ^ 2) = r ^ 3 := by
  rw [phi_documented 3 (by norm_num) r hr]
  simp [radial]

theorem phi3_eq (r : ℝ) : phi 3 r = max r eps ^ (0.5 * (3 : ℕ) : ℝ) := by simp [phi]

/-- The kernel of order three is the third power of the distance, up to `1e-15`. -/
theorem phi3_bounds (r : ℝ) : |r| ^ 3 ≤ phi 3 (r ^ 2) ∧ phi 3 (r ^ 2) ≤ |r| ^ 3 + phi 3 0 := by
  have hp : 0 ≤ phi 3 0 := by
    rw [phi3_eq]
    exact Real.rpow_nonneg (le_max_of_le_right eps_pos.le) _
  rcases le_total (1 / 10 ^ 5) |r| with h | h
  · rw [← sq_abs, phi3_of _ h]
    exact ⟨le_refl _, by linarith⟩
  · have he : r ^ 2 ≤ eps := by
      have : eps = (1 / 10 ^ 5 : ℝ) ^ 2 := by unfold eps; norm_num
      rw [this, ← sq_abs]
      exact pow_le_pow_left₀ (abs_nonneg r) h 2
    have h0 : phi 3 (r ^ 2) = phi 3 0 := by rw [phi3_eq, phi3_eq, max_eq_right he, max_eq_right eps_pos.le]
    have h1 : phi 3 0 = (1 / 10 ^ 5) ^ 3 := by
      rw [← phi3_of (1 / 10 ^ 5) le_rfl, phi3_eq, phi3_eq]
      congr 1
      rw [max_eq_right eps_pos.le, max_eq_left]
      · unfold eps; norm_num
      · unfold eps; norm_num
    refine ⟨?_, ?_⟩
    · rw [h0, h1]
      exact pow_le_pow_left₀ (abs_nonneg r) h 3
    · rw [h0]
      have := pow_nonneg (abs_nonneg r) 3
      linarith

theorem phi3_zero : phi 3 0 = 1 / 10 ^ 15 := by
  have h1 : phi 3 0 = (1 / 10 ^ 5) ^ 3 := by
    rw [← phi3_of (1 / 10 ^ 5) le_rfl, phi3_eq, phi3_eq]
    congr 1
    rw [max_eq_right eps_pos.le, max_eq_left]
    · unfold eps; norm_num
    · unfold eps; norm_num
  rw [h1]
  norm_num

theorem phi3_one : phi 3 1 = 1 := by
  have := phi3_of 1 (by norm_num)
  simpa using this

theorem phi3_four : phi 3 4 = 8 := by
  have := phi3_of 2 (by norm_num)
  norm_num at this
  exact this

/-- The density of three bins with all events in the middle one. -/
theorem spline_peak (order : ℕ) (x : ℝ) :
    splinePdf ![-1, 0, 1] ![0, 1, 0] order x =
      some (1 - (phi 3 ((x + 1) ^ 2) - 2 * phi 3 (x ^ 2) + phi 3 ((x - 1) ^ 2) - 2 + 2 / 10 ^ 15) / (4 + 3 / 10 ^ 15)) := by
  have := interpolate_three_peak 3 1 x (by rw [phi3_zero, phi3_one, phi3_four]; norm_num)
  rw [phi3_zero, phi3_one, phi3_four] at this
  simp only [one_mul] at this
  unfold splinePdf
  have e : (fun i (_ : Unit) => (![-1, 0, 1] : Fin 3 → ℝ) i) = three := rfl
  rw [e, show (![0, 1, 0] : Fin 3 → ℝ) = fun i => ![0, 1, 0] i from rfl, this]
  congr 2
  norm_num

/-- C91, counterexample. The density is negative inside the limits: all events in the middle one of three bins of width one, at the
upper limit. -/
theorem spline_pdf_negative_violated : ∃ p, splinePdf ![-1, 0, 1] ![0, 1, 0] 3 (3 / 2) = some p ∧ p < 0 := by
  refine ⟨_, spline_peak 3 _, ?_⟩
  rw [show ((3 : ℝ) / 2 + 1) = 5 / 2 by norm_num, show ((3 : ℝ) / 2 - 1) = 1 / 2 by norm_num, phi3_of _ (by norm_num), phi3_of _ (by norm_num),
    phi3_of _ (by norm_num)]
  norm_num

theorem abs_cube_integral (a b : ℝ) (ha : 0 ≤ a) (hb : 0 ≤ b) : ∫ u in (-a)..b, |u| ^ 3 = a ^ 4 / 4 + b ^ 4 / 4 := by
  have hi : ∀ c d : ℝ, IntervalIntegrable (fun x : ℝ => |x| ^ 3) volume c d := fun c d => by
    apply Continuous.intervalIntegrable
    fun_prop
  rw [← intervalIntegral.integral_add_adjacent_intervals (hi (-a) 0) (hi 0 b)]
  have h1 : ∫ u in (-a)..0, |u| ^ 3 = ∫ u in (-a)..0, -(u ^ 3) := by
    apply intervalIntegral.integral_congr
    intro t ht
    rw [Set.uIcc_of_le (by linarith)] at ht
    simp only
    rw [abs_of_nonpos ht.2]
    ring
  have h2 : ∫ u in (0 : ℝ)..b, |u| ^ 3 = ∫ u in (0 : ℝ)..b, u ^ 3 := by
    apply intervalIntegral.integral_congr
    intro t ht
    rw [Set.uIcc_of_le hb] at ht
    simp only
    rw [abs_of_nonneg ht.1]
  rw [h1, h2, intervalIntegral.integral_neg, integral_pow, integral_pow]
  norm_num
  ring

/-- C91, counterexample. The density is not normalised: with all events in the middle one of three bins of width one, the integral over
the limits is less than 0.9. -/
theorem spline_pdf_norm_violated : ∃ p : ℝ → ℝ, (∀ x, splinePdf ![-1, 0, 1] ![0, 1, 0] 3 x = some (p x)) ∧
    (∑ i, (1 : ℝ) * (![0, 1, 0] : Fin 3 → ℝ) i = 1) ∧ IntervalIntegrable p volume (-(3 / 2)) (3 / 2) ∧ ∫ x in (-(3 / 2))..(3 / 2), p x < 9 / 10 := by
  refine ⟨_, spline_peak 3, by simp [Fin.sum_univ_three], ?_, ?_⟩
  · have hc : Continuous fun r : ℝ => phi 3 (r ^ 2) := by
      simp only [phi3_eq]
      refine Continuous.rpow_const (by fun_prop) fun x => Or.inl ?_
      exact (lt_max_of_lt_right eps_pos).ne'
    apply Continuous.intervalIntegrable
    have h1 := hc.comp (continuous_id.add (continuous_const (y := (1 : ℝ))))
    have h2 := hc.comp (continuous_id.sub (continuous_const (y := (1 : ℝ))))
    simp only [Function.comp_def, id] at h1 h2
    fun_prop
  · have hc : Continuous fun r : ℝ => phi 3 (r ^ 2) := by
      simp only [phi3_eq]
      refine Continuous.rpow_const (by fun_prop) fun x => Or.inl ?_
      exact (lt_max_of_lt_right eps_pos).ne'
    have h1 := hc.comp (continuous_id.add (continuous_const (y := (1 : ℝ))))
    have h2 := hc.comp (continuous_id.sub (continuous_const (y := (1 : ℝ))))
    simp only [Function.comp_def, id] at h1 h2
    have hle : ∫ x in (-(3 / 2) : ℝ)..(3 / 2), (1 - (phi 3 ((x + 1) ^ 2) - 2 * phi 3 (x ^ 2) + phi 3 ((x - 1) ^ 2) - 2 + 2 / 10 ^ 15) / (4 + 3 / 10 ^ 15)) ≤
        ∫ x in (-(3 / 2) : ℝ)..(3 / 2), (1 - (|x + 1| ^ 3 - 2 * |x| ^ 3 + |x - 1| ^ 3 - 2) / (4 + 3 / 10 ^ 15)) := by
      apply intervalIntegral.integral_mono_on (by norm_num)
      · apply Continuous.intervalIntegrable
        fun_prop
      · apply Continuous.intervalIntegrable
        fun_prop
      · intro x _
        have a1 := (phi3_bounds (x + 1)).1
        have a2 := (phi3_bounds x).2
        have a3 := (phi3_bounds (x - 1)).1
        rw [phi3_zero] at a2
        apply sub_le_sub_left
        apply div_le_div_of_nonneg_right _ (by norm_num)
        linarith
    refine lt_of_le_of_lt hle ?_
    have c1 : ∀ a b : ℝ, IntervalIntegrable (fun x : ℝ => |x| ^ 3) volume a b := fun a b => by
      apply Continuous.intervalIntegrable
      fun_prop
    have i1 : ∫ x in (-(3 / 2) : ℝ)..(3 / 2), |x + 1| ^ 3 = (1 / 2) ^ 4 / 4 + (5 / 2) ^ 4 / 4 := by
      rw [intervalIntegral.integral_comp_add_right (fun u : ℝ => |u| ^ 3), ← abs_cube_integral (1 / 2) (5 / 2) (by norm_num) (by norm_num)]
      norm_num
    have i2 : ∫ x in (-(3 / 2) : ℝ)..(3 / 2), |x - 1| ^ 3 = (5 / 2) ^ 4 / 4 + (1 / 2) ^ 4 / 4 := by
      rw [intervalIntegral.integral_comp_sub_right (fun u : ℝ => |u| ^ 3), ← abs_cube_integral (5 / 2) (1 / 2) (by norm_num) (by norm_num)]
      norm_num
    have i3 := abs_cube_integral (3 / 2) (3 / 2) (by norm_num) (by norm_num)
    have ii : ∀ g : ℝ → ℝ, Continuous g → IntervalIntegrable g volume (-(3 / 2)) (3 / 2) := fun g hg => hg.intervalIntegrable _ _
    rw [intervalIntegral.integral_sub (ii _ (by fun_prop)) (ii _ (by fun_prop)), intervalIntegral.integral_div,
      intervalIntegral.integral_sub (ii _ (by fun_prop)) (ii _ (by fun_prop)), intervalIntegral.integral_add (ii _ (by fun_prop)) (ii _ (by fun_prop)),
      intervalIntegral.integral_sub (ii _ (by fun_prop)) (ii _ (by fun_prop)), intervalIntegral.integral_const_mul, i1, i2, i3]
    simp only [intervalIntegral.integral_const, smul_eq_mul]
    norm_num

/-- C91, counterexample. With another order than three the extended density is not the yield times the density: with the order two, all
events in the middle one of three bins, and the yield one, half-way between two centres. -/
theorem spline_ext_order_violated : ∃ p q, splinePdf ![-1, 0, 1] ![0, 1, 0] 2 (1 / 2) = some p ∧
    splineExtPdf (fun i (_ : Unit) => (![-1, 0, 1] : Fin 3 → ℝ) i) ![0, 1, 0] 1 2 (fun _ => 1 / 2) = some q ∧ q ≠ 1 * p := by
  have h2 := phi2_three
  have hl : 0 < Real.log 2 := Real.log_pos (by norm_num)
  have h4 : Real.log 4 = 2 * Real.log 2 := by
    rw [show (4 : ℝ) = 2 ^ 2 by norm_num, Real.log_pow]
    push_cast
    ring
  refine ⟨_, _, spline_peak 2 _, interpolate_three_peak 2 1 (1 / 2) (by rw [h2, h4]; positivity), ?_⟩
  rw [h2, phi2_one, phi2_zero]
  have e1 : phi 2 ((1 / 2 + 1) ^ 2) = 9 / 8 * (2 * Real.log 3 - 2 * Real.log 2) := by
    rw [phi2_of _ (by unfold eps; norm_num)]
    have : Real.log ((1 / 2 + 1) ^ 2) = 2 * Real.log 3 - 2 * Real.log 2 := by
      rw [show ((1 : ℝ) / 2 + 1) ^ 2 = (3 / 2) ^ 2 by norm_num, Real.log_pow, Real.log_div (by norm_num) (by norm_num)]
      push_cast
      ring
    rw [this]
    ring
  have e2 : phi 2 ((1 / 2) ^ 2) = 1 / 8 * (-(2 * Real.log 2)) := by
    rw [phi2_of _ (by unfold eps; norm_num), Real.log_pow, one_div, Real.log_inv]
    push_cast
    ring
  have e3 : phi 2 ((1 / 2 - 1) ^ 2) = 1 / 8 * (-(2 * Real.log 2)) := by
    rw [show ((1 : ℝ) / 2 - 1) ^ 2 = (1 / 2) ^ 2 by norm_num, e2]
  have f1 : phi 3 ((1 / 2 + 1) ^ 2) = (3 / 2) ^ 3 := by
    rw [← phi3_of (3 / 2) (by norm_num)]
    norm_num
  have f2 : phi 3 ((1 / 2 : ℝ) ^ 2) = (1 / 2) ^ 3 := phi3_of _ (by norm_num)
  have f3 : phi 3 ((1 / 2 - 1 : ℝ) ^ 2) = (1 / 2) ^ 3 := by
    rw [← phi3_of (1 / 2) (by norm_num)]
    norm_num
  have h32 : 19 * Real.log 2 < 12 * Real.log 3 := by
    have : Real.log (2 ^ 19) < Real.log (3 ^ 12) := Real.log_lt_log (by norm_num) (by norm_num)
    rw [Real.log_pow, Real.log_pow] at this
    exact_mod_cast this
  rw [e1, e2, e3, f1, f2, f3, h4]
  apply ne_of_lt
  have k1 : (9 / 8 * (2 * Real.log 3 - 2 * Real.log 2) - 2 * (1 / 8 * -(2 * Real.log 2)) + 1 / 8 * -(2 * Real.log 2) - 2 * 0 + 2 * 0) / (2 * (2 * Real.log 2)) > 39 / 100 := by
    rw [gt_iff_lt, lt_div_iff₀ (by positivity)]
    linarith
  have k2 : (((3 / 2 : ℝ) ^ 3 - 2 * (1 / 2) ^ 3 + (1 / 2) ^ 3 - 2 + 2 / 10 ^ 15) / (4 + 3 / 10 ^ 15)) < 39 / 100 := by norm_num
  linarith

end spline

end Zfit.Spline
