import Verif.Spline.Lemmas
import Verif.Spline.Spec

/-! C90: spline morphing; C91: `SplinePDF`. -/

namespace Zfit.Spline

open Matrix

section

variable {ι κ : Type} [Fintype ι] [DecidableEq ι] [Fintype κ] [DecidableEq κ]

theorem sqDist_eq (x y : κ → ℝ) : sqDist x y = ∑ k, (x k - y k) ^ 2 := by
  unfold sqDist
  rw [Finset.mul_sum, ← Finset.sum_sub_distrib, ← Finset.sum_add_distrib]
  exact Finset.sum_congr rfl fun k _ => by ring

theorem sqDist_dist (x y : κ → ℝ) : sqDist x y = dist x y ^ 2 := by
  rw [sqDist_eq, dist, Real.sq_sqrt (Finset.sum_nonneg fun k _ => sq_nonneg _)]

/-- C91, the kernel: of a distance of at least `1e-5` it is the documented radial basis function. -/
theorem phi_documented (k : ℕ) (hk : 0 < k) (r : ℝ) (hr : 1 / 10 ^ 5 ≤ r) : phi k (r ^ 2) = radial k r := by
  have hr0 : 0 < r := lt_of_lt_of_le (by norm_num) hr
  have hm : max (r ^ 2) eps = r ^ 2 := by
    apply max_eq_left
    have : eps = (1 / 10 ^ 5 : ℝ) ^ 2 := by unfold eps; norm_num
    rw [this]
    exact pow_le_pow_left₀ (by norm_num) hr 2
  have hl : Real.log (r ^ 2) = 2 * Real.log r := by rw [Real.log_pow]; norm_num
  have hp : (r ^ 2) ^ (0.5 * k : ℝ) = r ^ k := by
    rw [← Real.rpow_natCast r 2, ← Real.rpow_mul hr0.le, ← Real.rpow_natCast r k]
    congr 1
    push_cast
    ring
  unfold phi radial
  rw [hm, hl, hp]
  by_cases h1 : k = 1
  · subst h1
    norm_num [Real.sqrt_sq hr0.le]
  by_cases h2 : k = 2
  · subst h2
    norm_num
    ring
  by_cases h4 : k = 4
  · subst h4
    norm_num
    ring
  rw [if_neg h1, if_neg h2, if_neg h4]
  by_cases he : k % 2 = 0
  · rw [if_pos he, if_pos he]
    ring
  · rw [if_neg he, if_neg he]

/-- C91, the documented form: the interpolant is a sum of radial functions and a linear function that fits the values. -/
theorem interpolate_form (c : ι → κ → ℝ) (f : ι → ℝ) (order : ℕ) (hu : IsUnit (lhs c order 0).det) :
    ∃ (w : ι → ℝ) (v : κ → ℝ) (b : ℝ),
      (∀ x, interpolate c f x order = some ((∑ i, w i * phi order (dist x (c i) ^ 2)) + (∑ k, v k * x k) + b)) ∧
      (∀ j, (∑ i, w i * phi order (dist (c j) (c i) ^ 2)) + (∑ k, v k * c j k) + b = f j) ∧
      (∑ i, w i = 0) ∧ ∀ k, ∑ i, w i * c i k = 0 := by
  obtain ⟨w, v, hs, h1, h2⟩ := solve_some c f order 0 hu
  refine ⟨w, fun k => v (Sum.inl k), v (Sum.inr ()), ?_, ?_, ?_, ?_⟩
  · intro x
    unfold interpolate
    rw [hs]
    simp only [applyInterpolation, Fintype.sum_sum_type, Sum.elim_inl, Sum.elim_inr, Finset.univ_unique, Finset.sum_singleton, one_mul, sqDist_dist]
    simp only [mul_comm]
    congr 1
    ring
  · intro j
    have := congrFun h1 j
    simp only [matrixA, lt_irrefl, if_false, gt_iff_lt, matrixB, Pi.add_apply, Matrix.mulVec, dotProduct, Matrix.of_apply, Fintype.sum_sum_type,
      Sum.elim_inl, Sum.elim_inr, Finset.univ_unique, Finset.sum_singleton, one_mul, sqDist_dist] at this
    rw [← this]
    simp only [mul_comm]
    ring_nf
  · have := congrFun h2 (Sum.inr ())
    simpa [matrixB, Matrix.mulVec, dotProduct] using this
  · intro k
    have := congrFun h2 (Sum.inl k)
    simp only [matrixB, Matrix.mulVec, dotProduct, Matrix.transpose_apply, Matrix.of_apply, Sum.elim_inl, Pi.zero_apply] at this
    simpa [mul_comm] using this

/-- At every point the interpolant is the value there. -/
theorem interpolate_node (c : ι → κ → ℝ) (f : ι → ℝ) (order : ℕ) (hu : IsUnit (lhs c order 0).det) (j : ι) :
    interpolate c f (c j) order = some (f j) := by
  obtain ⟨w, v, b, h1, h2, -⟩ := interpolate_form c f order hu
  rw [h1, h2]

/-- The interpolation is linear in the values. -/
theorem interpolate_linear (c : ι → κ → ℝ) (f g : ι → ℝ) (a b : ℝ) (x : κ → ℝ) (order : ℕ) (hu : IsUnit (lhs c order 0).det) (p q : ℝ)
    (hf : interpolate c f x order = some p) (hg : interpolate c g x order = some q) :
    interpolate c (fun i => a * f i + b * g i) x order = some (a * p + b * q) := by
  obtain ⟨w, v, hs, h1, h2⟩ := solve_some c f order 0 hu
  obtain ⟨w', v', hs', h1', h2'⟩ := solve_some c g order 0 hu
  have hf' : applyInterpolation x c w v order = p := by
    simpa [interpolate, hs] using hf
  have hg' : applyInterpolation x c w' v' order = q := by
    simpa [interpolate, hs'] using hg
  rw [interpolate_of c _ x order 0 hu (a • w + b • w') (a • v + b • v') ?_ ?_, apply_linear, hf', hg']
  · simp only [Matrix.mulVec_add, Matrix.mulVec_smul]
    funext i
    have e1 := congrFun h1 i
    have e2 := congrFun h1' i
    simp only [Pi.add_apply, Pi.smul_apply, smul_eq_mul] at e1 e2 ⊢
    rw [← e1, ← e2]
    ring
  · simp only [Matrix.mulVec_add, Matrix.mulVec_smul, h2, h2', smul_zero, add_zero]

theorem interpolate_isSome (c : ι → κ → ℝ) (f : ι → ℝ) (x : κ → ℝ) (order : ℕ) (hu : IsUnit (lhs c order 0).det) :
    ∃ p, interpolate c f x order = some p := by
  obtain ⟨w, v, b, h1, -⟩ := interpolate_form c f order hu
  exact ⟨_, h1 x⟩

/-- Linear functions are reproduced everywhere. -/
theorem interpolate_affine (c : ι → κ → ℝ) (m : κ → ℝ) (b : ℝ) (x : κ → ℝ) (order : ℕ) (hu : IsUnit (lhs c order 0).det) :
    interpolate c (fun i => (∑ k, m k * c i k) + b) x order = some ((∑ k, m k * x k) + b) := by
  rw [interpolate_of c _ x order 0 hu 0 (Sum.elim m fun _ => b) ?_ (by simp)]
  · simp [applyInterpolation, mul_comm]
  · funext i
    simp [matrixB, Matrix.mulVec, dotProduct, mul_comm]

/-- The interpolation of a sum is the sum of the interpolations. -/
theorem interpolate_sum {β : Type} (s : Finset β) (c : ι → κ → ℝ) (f : β → ι → ℝ) (x : κ → ℝ) (order : ℕ) (hu : IsUnit (lhs c order 0).det) :
    interpolate c (fun i => ∑ b ∈ s, f b i) x order = some (∑ b ∈ s, (interpolate c (f b) x order).getD 0) := by
  classical
  induction s using Finset.induction_on with
  | empty =>
    have := interpolate_affine c 0 0 x order hu
    simpa using this
  | insert b s hb ih =>
    obtain ⟨p, hp⟩ := interpolate_isSome c (f b) x order hu
    have h := interpolate_linear c (f b) _ 1 1 x order hu _ _ hp ih
    simp only [one_mul] at h
    simp only [Finset.sum_insert hb, hp, Option.getD_some]
    exact h

end

/-! ## Morphing -/

section morph

variable {α β γ : Type}

/-- The points of the interpolation. -/
def points (hists : List (ℝ × α)) : Fin hists.length → Unit → ℝ := fun i _ => (hists.get i).1

/-- The templates at these `alpha` can be interpolated. Otherwise an error is raised, see `morph_refused`; two different or the
three `-1, 0, 1` can be, see `regular_two` and `regular_three`. -/
def Regular (hists : List (ℝ × α)) : Prop := IsUnit (lhs (points hists) 2 0).det

theorem morph_map (hists : List (ℝ × α)) (F : α → β → ℝ) (alpha : ℝ) (g : β → ℝ) :
    morph (hists.map fun p => (p.1, F p.2)) alpha = .ok g ↔
      Regular hists ∧ ∀ b, interpolate (points hists) (fun i => F (hists.get i).2 b) (fun _ => alpha) 2 = some (g b) := by
  have hl : (hists.map fun p => (p.1, F p.2)).length = hists.length := List.length_map _
  have key : ∀ (n : ℕ) (hn : n = hists.length) (c : Fin n → Unit → ℝ) (f : β → Fin n → ℝ), (c = fun i => points hists (Fin.cast hn i)) →
      (f = fun b i => F (hists.get (Fin.cast hn i)).2 b) →
      ((open Classical in if IsUnit (lhs c 2 0).det then Except.ok fun b => (interpolate c (f b) (fun _ => alpha) 2).getD 0 else .error Err.invalidArgument) =
        .ok g ↔ Regular hists ∧ ∀ b, interpolate (points hists) (fun i => F (hists.get i).2 b) (fun _ => alpha) 2 = some (g b)) := by
    intro n hn c f hc hf
    subst hn hc hf
    constructor
    · intro h
      split at h
      · next hu =>
        refine ⟨hu, fun b => ?_⟩
        injection h with h
        obtain ⟨p, hp⟩ := interpolate_isSome (points hists) (fun i => F (hists.get i).2 b) (fun _ => alpha) 2 hu
        rw [← h]
        change _ = some ((interpolate (points hists) (fun i => F (hists.get i).2 b) (fun _ => alpha) 2).getD 0)
        rw [hp]
        rfl
      · exact absurd h (by simp)
    · rintro ⟨hu, hg⟩
      refine (if_pos hu).trans ?_
      congr 1
      funext b
      change (interpolate (points hists) (fun i => F (hists.get i).2 b) (fun _ => alpha) 2).getD 0 = _
      rw [hg b]
      rfl
  refine key _ hl _ (fun b i => ((hists.map fun p => (p.1, F p.2)).get i).2 b) ?_ ?_
  · funext i u
    simp [points]
  · funext b i
    simp

theorem morph_iff (hists : List (ℝ × (β → ℝ))) (alpha : ℝ) (g : β → ℝ) :
    morph hists alpha = .ok g ↔
      Regular hists ∧ ∀ b, interpolate (points hists) (fun i => (hists.get i).2 b) (fun _ => alpha) 2 = some (g b) := by
  have := morph_map hists (fun f => f) alpha g
  simpa using this

/-- C90. Templates that cannot be interpolated are refused, and only those. -/
theorem morph_refused (hists : List (ℝ × (β → ℝ))) (alpha : ℝ) : morph hists alpha = .error .invalidArgument ↔ ¬ Regular hists := by
  constructor
  · intro h hu
    have h2 := (if_pos hu).symm.trans h
    simp at h2
  · intro h
    exact if_neg h

/-- C90. At the `alpha` of a template the morphed histogram is that template, in every bin. -/
theorem morph_node (hists : List (ℝ × (β → ℝ))) (hr : Regular hists) (a : ℝ) (t : β → ℝ) (ht : (a, t) ∈ hists) : morph hists a = .ok t := by
  rw [morph_iff]
  refine ⟨hr, fun b => ?_⟩
  obtain ⟨j, hj⟩ := List.get_of_mem ht
  have h1 := interpolate_node (points hists) (fun i => (hists.get i).2 b) 2 hr j
  have h2 : points hists j = fun _ => a := by
    funext u
    simp only [points, hj]
  rw [h2, hj] at h1
  exact h1

/-- C90. Templates that change linearly with `alpha` are continued linearly, to every `alpha`. -/
theorem morph_affine (hists : List (ℝ × (β → ℝ))) (hr : Regular hists) (m n : β → ℝ) (hl : ∀ p ∈ hists, ∀ b, p.2 b = m b * p.1 + n b) (alpha : ℝ) :
    morph hists alpha = .ok fun b => m b * alpha + n b := by
  rw [morph_iff]
  refine ⟨hr, fun b => ?_⟩
  have h1 := interpolate_affine (points hists) (fun _ => m b) (n b) (fun _ => alpha) 2 hr
  have h2 : (fun i => (hists.get i).2 b) = fun i => (∑ k : Unit, m b * points hists i k) + n b := by
    funext i
    rw [hl _ (List.get_mem hists i) b]
    simp [points]
  rw [h2, h1]
  simp

/-- The total of the interpolated histogram is the interpolation of the totals. -/
theorem morph_total [Fintype β] (hists : List (ℝ × α)) (F : α → β → ℝ) (alpha : ℝ) (g : β → ℝ)
    (h : morph (hists.map fun p => (p.1, F p.2)) alpha = .ok g) :
    morph (hists.map fun p => (p.1, fun _ : Unit => total (F p.2))) alpha = .ok fun _ => total g := by
  obtain ⟨hu, hg⟩ := (morph_map hists F alpha g).1 h
  refine (morph_map hists (fun t _ => total (F t)) alpha _).2 ⟨hu, fun _ => ?_⟩
  have hs := interpolate_sum Finset.univ (points hists) (fun b i => F (hists.get i).2 b) (fun _ => alpha) 2 hu
  simp only [hg, Option.getD_some] at hs
  exact hs

/-- C90. If the relative counts of every template add up to one, those of the morphed PDF do for every `alpha`. -/
theorem morph_rel_counts_total [Fintype β] (hists : List (ℝ × Template β)) (hr : Regular hists) (h1 : ∀ p ∈ hists, total p.2.relCounts = 1) (alpha : ℝ) :
    ∃ g, relCounts hists alpha = .ok g ∧ total g = 1 := by
  have hex : ∃ g, relCounts hists alpha = .ok g := by
    refine ⟨fun b => (interpolate (points hists) (fun i => (hists.get i).2.relCounts b) (fun _ => alpha) 2).getD 0, ?_⟩
    refine (morph_map hists (fun t => t.relCounts) alpha _).2 ⟨hr, fun b => ?_⟩
    obtain ⟨p, hp⟩ := interpolate_isSome (points hists) (fun i => (hists.get i).2.relCounts b) (fun _ => alpha) 2 hr
    rw [hp]
    rfl
  obtain ⟨g, hg⟩ := hex
  refine ⟨g, hg, ?_⟩
  have ht := morph_total hists (fun t => t.relCounts) alpha g hg
  have ha := ((morph_map hists (fun t (_ : Unit) => total t.relCounts) alpha _).1 ht).2 ()
  have h2 : (fun i => total (hists.get i).2.relCounts) = fun i => (∑ k : Unit, 0 * points hists i k) + 1 := by
    funext i
    rw [h1 _ (List.get_mem hists i)]
    simp
  rw [h2, interpolate_affine (points hists) (fun _ => 0) 1 (fun _ => alpha) 2 hr] at ha
  rw [← Option.some.inj ha]
  simp

/-- C90. The yield created automatically is the total of the morphed counts, for every `alpha`. -/
theorem morph_yield_is_total [Fintype β] (hists : List (ℝ × Template β)) (h1 : ∀ p ∈ hists, total p.2.relCounts = 1) (alpha : ℝ) (g : β → ℝ)
    (hg : counts hists alpha = .ok g) : autoYield hists alpha = .ok (total g) := by
  have ht := morph_total hists (fun t => t.counts) alpha g hg
  have he : (hists.map fun p => (p.1, fun _ : Unit => total p.2.counts)) = hists.map fun h => (h.1, fun _ : Unit => h.2.yield) := by
    apply List.map_congr_left
    intro p hp
    have := h1 p hp
    have h2 : total p.2.counts = p.2.yield := by
      unfold total Template.counts at *
      rw [← Finset.mul_sum, this, mul_one]
    rw [h2]
  rw [he] at ht
  unfold autoYield
  rw [ht]
  rfl

end morph

end Zfit.Spline
