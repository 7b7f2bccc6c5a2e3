import Verif.Spline.Props

/-! C90: when templates can be interpolated, explicit cases and counterexamples. -/

namespace Zfit.Spline

open Matrix

theorem eps_pos : 0 < eps := by unfold eps; norm_num

theorem phi2_zero : phi 2 0 = 0 := by simp [phi]

theorem phi2_one : phi 2 1 = 0 := by
  have : max (1 : ℝ) eps = 1 := max_eq_left (by unfold eps; norm_num)
  simp [phi, this]

theorem phi2_of (r : ℝ) (h : eps ≤ r) : phi 2 r = 1 / 2 * r * Real.log r := by
  simp [phi, max_eq_left h]
  norm_num

/-- Two different points can always be interpolated. -/
theorem regular_fin_two (c : Fin 2 → Unit → ℝ) (h : c 0 () ≠ c 1 ()) (order : ℕ) : IsUnit (lhs c order 0).det := by
  apply isUnit_lhs_of
  intro w v h1 h2
  have e1 := congrFun h2 (Sum.inl ())
  have e2 := congrFun h2 (Sum.inr ())
  simp only [matrixB, Matrix.mulVec, dotProduct, Matrix.transpose_apply, Matrix.of_apply, Sum.elim_inl, Sum.elim_inr, Pi.zero_apply,
    Fin.sum_univ_two, one_mul] at e1 e2
  have hd : c 0 () - c 1 () ≠ 0 := sub_ne_zero.2 h
  have w0 : w 0 = 0 := by
    have : (c 0 () - c 1 ()) * w 0 = 0 := by linear_combination e1 - c 1 () * e2
    exact (mul_eq_zero.1 this).resolve_left hd
  have w1 : w 1 = 0 := by linarith
  have hw : w = 0 := by
    funext i
    fin_cases i
    · exact w0
    · exact w1
  refine ⟨hw, ?_⟩
  rw [hw, Matrix.mulVec_zero, zero_add] at h1
  have f0 := congrFun h1 0
  have f1 := congrFun h1 1
  simp only [matrixB, Matrix.mulVec, dotProduct, Matrix.of_apply, Fintype.sum_sum_type, Sum.elim_inl, Sum.elim_inr, Finset.univ_unique,
    Finset.sum_singleton, one_mul, Pi.zero_apply, PUnit.default_eq_unit] at f0 f1
  have v0 : v (Sum.inl ()) = 0 := by
    have : (c 0 () - c 1 ()) * v (Sum.inl ()) = 0 := by linear_combination f0 - f1
    exact (mul_eq_zero.1 this).resolve_left hd
  rw [v0] at f0
  funext k
  rcases k with ⟨⟩ | ⟨⟩
  · exact v0
  · simpa using f0

/-- The points of the list of three templates. -/
def three : Fin 3 → Unit → ℝ := fun i _ => ![-1, 0, 1] i

theorem three_A (order : ℕ) (w : Fin 3 → ℝ) :
    matrixA three order 0 *ᵥ w = ![phi order 0 * w 0 + phi order 1 * w 1 + phi order 4 * w 2,
      phi order 1 * w 0 + phi order 0 * w 1 + phi order 1 * w 2, phi order 4 * w 0 + phi order 1 * w 1 + phi order 0 * w 2] := by
  funext i
  fin_cases i <;>
    simp [matrixA, three, Matrix.mulVec, dotProduct, Fin.sum_univ_three, sqDist_eq] <;> norm_num

theorem three_B (v : Unit ⊕ Unit → ℝ) :
    matrixB three *ᵥ v = ![-v (Sum.inl ()) + v (Sum.inr ()), v (Sum.inr ()), v (Sum.inl ()) + v (Sum.inr ())] := by
  funext i
  fin_cases i <;> simp [matrixB, three, Matrix.mulVec, dotProduct]

theorem three_Bt (w : Fin 3 → ℝ) : (matrixB three)ᵀ *ᵥ w = Sum.elim (fun _ => -w 0 + w 2) fun _ => w 0 + w 1 + w 2 := by
  funext k
  rcases k with ⟨⟩ | ⟨⟩ <;> simp [matrixB, three, Matrix.mulVec, dotProduct, Fin.sum_univ_three]

/-- The points `-1, 0, 1` can be interpolated with every order for which `φ(4) - 4 φ(1) + 3 φ(0)` is not zero. -/
theorem regular_fin_three (order : ℕ) (h : phi order 4 - 4 * phi order 1 + 3 * phi order 0 ≠ 0) : IsUnit (lhs three order 0).det := by
  apply isUnit_lhs_of
  intro w v h1 h2
  rw [three_A, three_B] at h1
  rw [three_Bt] at h2
  have e1 : -w 0 + w 2 = 0 := congrFun h2 (Sum.inl ())
  have e2 : w 0 + w 1 + w 2 = 0 := congrFun h2 (Sum.inr ())
  have f0 := congrFun h1 0
  have f1 := congrFun h1 1
  have f2 := congrFun h1 2
  simp only [Pi.add_apply, Matrix.cons_val_zero, Matrix.cons_val_one, Matrix.cons_val_two, Matrix.head_cons, Matrix.tail_cons, Pi.zero_apply, Matrix.cons_val] at f0 f1 f2
  have w2 : w 2 = w 0 := by linarith
  have w1 : w 1 = -2 * w 0 := by linarith
  rw [w2, w1] at f0 f1 f2
  have w0 : w 0 = 0 := by
    have : (phi order 4 - 4 * phi order 1 + 3 * phi order 0) * w 0 = 0 := by linear_combination (f0 + f2) / 2 - f1
    exact (mul_eq_zero.1 this).resolve_left h
  rw [w0] at f0 f1 f2 w1 w2
  constructor
  · funext i
    fin_cases i
    · exact w0
    · simpa using w1
    · simpa using w2
  · funext k
    rcases k with ⟨⟩ | ⟨⟩
    · simp only [mul_zero, add_zero, zero_add, Pi.zero_apply] at f0 f1 f2 ⊢
      linarith
    · simp only [mul_zero, add_zero, zero_add, Pi.zero_apply] at f0 f1 f2 ⊢
      linarith

theorem phi2_three : phi 2 4 - 4 * phi 2 1 + 3 * phi 2 0 = 2 * Real.log 4 := by
  rw [phi2_zero, phi2_one, phi2_of 4 (by unfold eps; norm_num)]
  ring

variable {α β : Type}

/-- C90. Two templates at different `alpha` can always be interpolated. -/
theorem regular_two (a b : ℝ) (s t : α) (h : a ≠ b) : Regular [(a, s), (b, t)] :=
  regular_fin_two (fun i _ => ([(a, s), (b, t)].get i).1) h 2

/-- C90. So can the three templates at `-1, 0, 1`. -/
theorem regular_three (r s t : α) : Regular [((-1 : ℝ), r), (0, s), (1, t)] := by
  have h := regular_fin_three 2 (by rw [phi2_three]; exact (mul_pos two_pos (Real.log_pos (by norm_num))).ne')
  have e : points [((-1 : ℝ), r), (0, s), (1, t)] = three := by
    funext i u
    fin_cases i <;> rfl
  unfold Regular
  rw [e]
  exact h

/-- C90. Two templates are interpolated linearly, for every `alpha`. -/
theorem morph_two (a b : ℝ) (h : a ≠ b) (f g : β → ℝ) (alpha : ℝ) :
    morph [(a, f), (b, g)] alpha = .ok fun x => f x + (alpha - a) / (b - a) * (g x - f x) := by
  have hd : b - a ≠ 0 := sub_ne_zero.2 h.symm
  have := morph_affine [(a, f), (b, g)] (regular_two a b f g h) (fun x => (g x - f x) / (b - a)) (fun x => f x - (g x - f x) / (b - a) * a) ?_ alpha
  · rw [this]
    congr 1
    funext x
    field_simp
    ring
  · intro p hp x
    simp only [List.mem_cons, List.not_mem_nil, or_false] at hp
    rcases hp with rfl | rfl
    · simp
    · simp only
      field_simp
      ring

/-- C90. One template alone is refused. -/
theorem morph_single (a : ℝ) (f : β → ℝ) (alpha : ℝ) : morph [(a, f)] alpha = .error .invalidArgument := by
  rw [morph_refused]
  intro hr
  have h1 := interpolate_affine (points [(a, f)]) (fun _ => 1) 0 (fun _ => a + 1) 2 hr
  have h2 := interpolate_affine (points [(a, f)]) (fun _ => 0) a (fun _ => a + 1) 2 hr
  have e : (fun i => (∑ k : Unit, (1 : ℝ) * points [(a, f)] i k) + 0) = fun i => (∑ k : Unit, (0 : ℝ) * points [(a, f)] i k) + a := by
    funext i
    fin_cases i
    simp [points]
  rw [e, h2] at h1
  simp at h1

/-- The interpolation between three templates, written out. -/
theorem morph_three (f g h : β → ℝ) (alpha : ℝ) :
    morph [((-1 : ℝ), f), (0, g), (1, h)] alpha = .ok fun b =>
      ((f b + h b) / 2 - g b) / (2 * Real.log 4) * (phi 2 ((alpha + 1) ^ 2) - 2 * phi 2 (alpha ^ 2) + phi 2 ((alpha - 1) ^ 2)) +
        (h b - f b) / 2 * alpha + g b := by
  rw [morph_iff]
  have hr := regular_three f g h
  refine ⟨hr, fun b => ?_⟩
  have e : points [((-1 : ℝ), f), (0, g), (1, h)] = three := by
    funext i u
    fin_cases i <;> rfl
  unfold Regular at hr
  rw [e] at hr ⊢
  have hl : (2 * Real.log 4) ≠ 0 := (mul_pos two_pos (Real.log_pos (by norm_num))).ne'
  obtain ⟨m, hm⟩ : ∃ m, m = ((f b + h b) / 2 - g b) / (2 * Real.log 4) := ⟨_, rfl⟩
  have hm' : m * (2 * Real.log 4) = (f b + h b) / 2 - g b := by rw [hm]; field_simp
  refine (interpolate_of three _ (fun _ => alpha) 2 0 hr ![m, -2 * m, m] (Sum.elim (fun _ => (h b - f b) / 2) fun _ => g b) ?_ ?_).trans ?_
  · rw [three_A, three_B, phi2_zero, phi2_one, phi2_of 4 (by unfold eps; norm_num)]
    funext i
    fin_cases i
    · simp
      linear_combination hm'
    · simp
    · simp
      linear_combination hm'
  · rw [three_Bt]
    funext k
    rcases k with ⟨⟩ | ⟨⟩
    · simp
    · simp
      ring
  · congr 1
    simp only [applyInterpolation, Fin.sum_univ_three, sqDist_eq, three, Fintype.sum_sum_type, Finset.univ_unique, Finset.sum_singleton, Sum.elim_inl, Sum.elim_inr]
    simp
    rw [← hm]
    ring

/-- C90, counterexample. Counts of templates that are not negative become negative between the templates: the counts 1, 0, 0 at `alpha`
-1, 0, 1 give less than zero at 1/2. -/
theorem morph_negative_violated : ∃ g, morph [((-1 : ℝ), fun _ : Unit => (1 : ℝ)), (0, fun _ => 0), (1, fun _ => 0)] (1 / 2) = .ok g ∧ g () < 0 := by
  refine ⟨_, morph_three _ _ _ _, ?_⟩
  have h1 : phi 2 ((1 / 2 + 1) ^ 2) = 9 / 8 * (2 * Real.log 3 - 2 * Real.log 2) := by
    rw [phi2_of _ (by unfold eps; norm_num)]
    have : Real.log ((1 / 2 + 1) ^ 2) = 2 * Real.log 3 - 2 * Real.log 2 := by
      rw [show ((1 : ℝ) / 2 + 1) ^ 2 = (3 / 2) ^ 2 by norm_num, Real.log_pow, Real.log_div (by norm_num) (by norm_num)]
      push_cast
      ring
    rw [this]
    ring
  have h2 : phi 2 ((1 / 2) ^ 2) = 1 / 8 * (-(2 * Real.log 2)) := by
    rw [phi2_of _ (by unfold eps; norm_num), Real.log_pow, one_div, Real.log_inv]
    push_cast
    ring
  have h3 : phi 2 ((1 / 2 - 1) ^ 2) = 1 / 8 * (-(2 * Real.log 2)) := by
    rw [show ((1 : ℝ) / 2 - 1) ^ 2 = (1 / 2) ^ 2 by norm_num, h2]
  have h4 : Real.log 4 = 2 * Real.log 2 := by
    rw [show (4 : ℝ) = 2 ^ 2 by norm_num, Real.log_pow]
    push_cast
    ring
  have hl : 0 < Real.log 2 := Real.log_pos (by norm_num)
  have h32 : 5 * Real.log 3 < 8 * Real.log 2 := by
    have : Real.log (3 ^ 5) < Real.log (2 ^ 8) := Real.log_lt_log (by norm_num) (by norm_num)
    rw [Real.log_pow, Real.log_pow] at this
    exact_mod_cast this
  rw [h1, h2, h3, h4]
  have e : ((1 + (0 : ℝ)) / 2 - 0) / (2 * (2 * Real.log 2)) * (9 / 8 * (2 * Real.log 3 - 2 * Real.log 2) - 2 * (1 / 8 * -(2 * Real.log 2)) +
      1 / 8 * -(2 * Real.log 2)) + (0 - 1) / 2 * (1 / 2) + 0 = (9 * Real.log 3 - 16 * Real.log 2) / (32 * Real.log 2) := by
    field_simp
    ring
  rw [e]
  apply div_neg_of_neg_of_pos
  · linarith
  · linarith

/-- C90, counterexample. Between templates the counts are not the yield times the relative counts: two templates with one and three
events and the shapes (1, 0) and (0, 1) give 1/2 and 3/2 events half-way, where the yield is 2 and the relative counts are 1/2 each. -/
theorem morph_counts_violated :
    ∃ (hists : List (ℝ × Template Bool)) (alpha : ℝ) (c r : Bool → ℝ) (y : ℝ), (∀ p ∈ hists, total p.2.relCounts = 1) ∧ counts hists alpha = .ok c ∧
      relCounts hists alpha = .ok r ∧ autoYield hists alpha = .ok y ∧ c true = 1 / 2 ∧ y * r true = 1 := by
  refine ⟨[(0, ⟨fun b => if b then 1 else 0, 1⟩), (1, ⟨fun b => if b then 0 else 1, 3⟩)], 1 / 2, _, _, 2, ?_, morph_two 0 1 (by norm_num) _ _ _,
    morph_two 0 1 (by norm_num) _ _ _, ?_, ?_, ?_⟩
  · intro p hp
    simp only [List.mem_cons, List.not_mem_nil, or_false] at hp
    rcases hp with rfl | rfl <;> simp [total]
  · unfold autoYield
    simp only [List.map_cons, List.map_nil]
    rw [morph_two 0 1 (by norm_num)]
    simp only [Except.map]
    norm_num
  · norm_num [Template.counts]
  · norm_num

/-! ### The constructor -/

/-- C90. A list of three templates is the dictionary with the keys -1, 0, 1; other lengths are refused. -/
theorem from_list (hists : List α) : fromList hists = match hists with
    | [r, s, t] => .ok [(-1, r), (0, s), (1, t)]
    | _ => .error .valueError := by
  match hists with
  | [] => rfl
  | [_] => rfl
  | [_, _] => rfl
  | [r, s, t] =>
    simp [fromList, List.range_succ]
    norm_num
  | _ :: _ :: _ :: _ :: _ => simp [fromList]

/-- C90, counterexample. The dictionary of the user is changed: histograms in it are replaced by PDFs, also if the creation fails
afterwards. -/
theorem morph_changes_input_violated (t : Template β) :
    (convertLoop [(0, .histogram t), (1, .other)]).1 ≠ [(0, Arg.histogram t), (1, .other)] ∧
    (convertLoop [(0, .histogram t), (1, .other)]).2 = some .typeError := by
  simp [convertLoop]

end Zfit.Spline
