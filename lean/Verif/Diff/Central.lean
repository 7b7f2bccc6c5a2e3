import Verif.Diff.Props

/-! C92: the value and the derivatives together, the estimate of the derivative, and what goes wrong at limits and with exceptions. -/

namespace Zfit.Diff

open Zfit Zfit.Par

/-- C92. `numerical_value_gradient`: the value is that at the values of the parameters, and they are the same afterwards. -/
theorem value_gradient_restores {ρ : Type} (ps : List Ref) (f : Func) (lib : List Rat → Strategy ρ) (s : Store) (v : Rat) (g : ρ)
    (h : (valueGradient ps (some f) lib s).2 = .ok (v, g)) : f s = .ok v ∧ (numerical ps f lib s).2 = .ok g ∧ Same s (valueGradient ps (some f) lib s).1 := by
  unfold valueGradient at h ⊢
  simp only at h ⊢
  cases hf : f s with
  | error e => rw [hf] at h; simp at h
  | ok v' =>
    rw [hf] at h
    simp only at h ⊢
    obtain ⟨⟨d, q⟩, hd⟩ : ∃ d, d = numerical ps f lib s := ⟨_, rfl⟩
    rw [← hd] at h ⊢
    cases q with
    | error e => simp at h
    | ok q =>
      simp only [Except.ok.injEq, Prod.mk.injEq] at h
      have := numerical_restores ps f lib s q (by rw [← hd])
      rw [← hd] at this
      exact ⟨by rw [h.1], by simp [h.2], this⟩

/-- A function that only looks at the values (and limits) of the parameters. -/
def OfValues (f : Func) : Prop := ∀ s s', Same s s' → f s' = f s

theorem at_congr (s s' : Store) (ps : List Ref) (x : List Rat) (h : Same s s') : Same (at_ s ps x) (at_ s' ps x) := by
  intro i
  unfold at_
  rcases assignAll_cases s ((ps.zip x).map fun e => (e.1.id, e.2)) i with ⟨-, h2⟩ | ⟨v, -, h2⟩
  · rw [h2, h2]
    exact h i
  · rw [h2, h2]
    obtain ⟨-, hl, hu⟩ := h i
    refine ⟨?_, hl, hu⟩
    unfold Param.value Param.assign Param.hasLimits
    simp only [hl, hu]

theorem paramVals_congr (s s' : Store) (ps : List Ref) (h : Same s s') : paramVals ps s' = paramVals ps s :=
  List.map_congr_left fun p _ => (h p.id).1

/-- C92. `numerical_value_gradient_hessian` gives the value, the gradient and the Hessian at the values of the parameters, and leaves
them the same. -/
theorem value_gradient_hessian_restores {ρ σ : Type} (ps : List Ref) (f : Func) (given : Bool) (libG : List Rat → Strategy ρ) (libH : List Rat → Strategy σ)
    (s : Store) (v : Rat) (g : ρ) (h : σ) (hp : Assignable ps) (hf : OfValues f) (hH : Asks ps.length (libH (paramVals ps s)))
    (hr : (valueGradientHessian (some ps) (some f) given libG libH s).2 = .ok (v, g, h)) :
    f s = .ok v ∧ (numerical ps f libG s).2 = .ok g ∧ (numerical ps f libH s).2 = .ok h ∧
      Same s (valueGradientHessian (some ps) (some f) given libG libH s).1 := by
  unfold valueGradientHessian at hr ⊢
  simp only [Option.isNone_some, Bool.false_and, Bool.false_eq_true, if_false] at hr ⊢
  obtain ⟨⟨d, q⟩, hd⟩ : ∃ d, d = valueGradient ps (some f) libG s := ⟨_, rfl⟩
  rw [← hd] at hr ⊢
  cases q with
  | error e => simp at hr
  | ok q =>
    obtain ⟨v', g'⟩ := q
    simp only at hr ⊢
    obtain ⟨h1, h2, h3⟩ := value_gradient_restores ps f libG s v' g' (by rw [← hd])
    rw [← hd] at h3
    simp only at h3
    obtain ⟨⟨d', q'⟩, hd'⟩ : ∃ d', d' = numerical ps f libH d := ⟨_, rfl⟩
    rw [← hd'] at hr ⊢
    cases q' with
    | error e => simp at hr
    | ok q' =>
      simp only [Except.ok.injEq, Prod.mk.injEq] at hr
      obtain ⟨rfl, rfl, rfl⟩ := hr
      have h4 := numerical_restores ps f libH d q' (by rw [← hd'])
      rw [← hd'] at h4
      refine ⟨h1, h2, ?_, fun i => ⟨(h4 i).1.trans (h3 i).1, (h4 i).2.1.trans (h3 i).2.1, (h4 i).2.2.trans (h3 i).2.2⟩⟩
      have h5 := numerical_result ps f libH d hp (by rw [paramVals_congr s d ps h3]; exact hH)
      rw [numerical_result ps f libH s hp hH]
      rw [← hd'] at h5
      simp only at h5
      rw [h5, paramVals_congr s d ps h3]
      congr 1
      funext x
      exact (hf _ _ (at_congr s d ps x h3)).symm

/-! ## The estimate of the derivative -/

theorem central_asks (j : Nat) (steps : List (Rat × Rat)) (x : List Rat) : Asks x.length (central j steps x) := by
  have : ∀ (l : List (Rat × Rat)) (acc : Rat), Asks x.length (central.go j x l acc) := by
    intro l
    induction l with
    | nil => exact fun acc => .done _
    | cons p l ih =>
      intro acc
      obtain ⟨h, w⟩ := p
      exact .ask _ _ (by simp) fun up => .ask _ _ (by simp) fun down => ih _
  exact this steps 0

/-- The estimate, for a function of the point that does not raise. -/
theorem central_ideal (j : Nat) (steps : List (Rat × Rat)) (x : List Rat) (f : List Rat → Except Err Rat) (F : Rat → Rat)
    (hf : ∀ p ∈ steps, f (x.modify j (· + p.1)) = .ok (F p.1) ∧ f (x.modify j (· - p.1)) = .ok (F (-p.1))) :
    ideal f (central j steps x) = .ok (steps.map fun p => p.2 * ((F p.1 - F (-p.1)) / (2 * p.1))).sum := by
  have : ∀ (l : List (Rat × Rat)) (acc : Rat), (∀ p ∈ l, p ∈ steps) →
      ideal f (central.go j x l acc) = .ok (acc + (l.map fun p => p.2 * ((F p.1 - F (-p.1)) / (2 * p.1))).sum) := by
    intro l
    induction l with
    | nil =>
      intro acc _
      simp [central.go, ideal]
    | cons p l ih =>
      intro acc hl
      obtain ⟨h, w⟩ := p
      obtain ⟨h1, h2⟩ := hf (h, w) (hl _ (by simp))
      simp only at h1 h2
      rw [central.go, ideal, h1]
      simp only
      rw [ideal, h2]
      simp only
      rw [ih _ fun p hp => hl p (List.mem_cons_of_mem _ hp)]
      simp [add_assoc]
  have h := this steps 0 fun p hp => hp
  rw [zero_add] at h
  exact h

/-- The value of the parameter `i` if it is assigned `t`. -/
def seen (s : Store) (i : Nat) (t : Rat) : Rat := ((s i).assign t).value

/-- The parameters with one of them moved by `h`. -/
theorem moved (s : Store) (ps : List Ref) (j : Nat) (p : Ref) (hj : ps[j]? = some p) (hn : (ps.map (·.id)).Nodup) (g : Rat → Rat) (i : Nat) :
    (at_ s ps ((paramVals ps s).modify j g) i).value = if i = p.id then seen s i (g (s i).value) else (s i).value := by
  unfold at_
  rcases assignAll_cases s ((ps.zip ((paramVals ps s).modify j g)).map fun e => (e.1.id, e.2)) i with ⟨hi, h⟩ | ⟨v, ⟨iv, hm, he⟩, h⟩
  · rw [h]
    rw [if_neg]
    rintro rfl
    apply hi
    have : p ∈ ps := List.mem_of_getElem? hj
    simp only [List.map_map, Function.comp_def]
    rw [show (ps.zip ((paramVals ps s).modify j g)).map (fun e => e.1.id) = ((ps.zip ((paramVals ps s).modify j g)).map (·.1)).map (·.id) by
      rw [List.map_map]; rfl, List.map_fst_zip (by simp [paramVals])]
    exact List.mem_map.2 ⟨p, this, rfl⟩
  · rw [h]
    obtain ⟨e, hez, hee⟩ := List.mem_map.1 hm
    rw [he] at hee
    simp only [Prod.mk.injEq] at hee
    obtain ⟨k, hk⟩ := List.mem_iff_getElem?.1 hez
    rw [List.getElem?_zip_eq_some] at hk
    obtain ⟨hk1, hk2⟩ := hk
    rw [List.getElem?_modify] at hk2
    unfold paramVals at hk2
    rw [List.getElem?_map, hk1] at hk2
    simp only [Option.map_eq_map, Option.map_some, Option.some.injEq] at hk2
    by_cases hkj : k = j
    · subst hkj
      rw [hj] at hk1
      simp only [Option.some.injEq] at hk1
      rw [if_pos rfl] at hk2
      rw [if_pos (by rw [← hee.1, hk1]), ← hee.2, ← hk2, hee.1]
      rfl
    · rw [if_neg (fun h => hkj h.symm)] at hk2
      rw [if_neg]
      · rw [← hee.2, ← hk2, hee.1]
        exact value_assign_value _
      · intro hip
        have a1 : (ps.map (·.id))[k]? = some i := by rw [List.getElem?_map, hk1]; simp [hee.1]
        have a2 : (ps.map (·.id))[j]? = some i := by rw [List.getElem?_map, hj]; simp [hip]
        have hkl : k < (ps.map (·.id)).length := by
          by_contra hge
          rw [List.getElem?_eq_none (by omega)] at a1
          simp at a1
        exact hkj ((List.getElem?_inj hkl hn).1 (a1.trans a2.symm))

/-- C92, main statement. A function of the values of the parameters that is quadratic in one of them: the estimate of the derivative
with respect to it is exact if no step leaves the limits, whatever the steps and the weights (that add up to one). -/
theorem gradient_exact (ps : List Ref) (hp : Assignable ps) (hn : (ps.map (·.id)).Nodup) (j : Nat) (p : Ref) (hj : ps[j]? = some p) (s : Store)
    (F : (Nat → Rat) → Rat) (a b c : Rat) (hF : ∀ t, F (Function.update (fun i => (s i).value) p.id t) = a * t ^ 2 + b * t + c)
    (steps : List (Rat × Rat)) (h0 : ∀ q ∈ steps, q.1 ≠ 0) (hw : (steps.map (·.2)).sum = 1)
    (hin : ∀ q ∈ steps, seen s p.id ((s p.id).value + q.1) = (s p.id).value + q.1 ∧ seen s p.id ((s p.id).value - q.1) = (s p.id).value - q.1) :
    (numerical ps (fun s => .ok (F fun i => (s i).value)) (central j steps) s).2 = .ok (2 * a * (s p.id).value + b) := by
  have hlen : (paramVals ps s).length = ps.length := by simp [paramVals]
  rw [numerical_result ps _ _ s hp (by rw [← hlen]; exact central_asks j steps _)]
  have hat : ∀ g : Rat → Rat, (fun i => (at_ s ps ((paramVals ps s).modify j g) i).value) =
      Function.update (fun i => (s i).value) p.id (seen s p.id (g (s p.id).value)) := by
    intro g
    funext i
    rw [moved s ps j p hj hn g i, Function.update_apply]
    split
    · next h => subst h; rfl
    · rfl
  rw [central_ideal j steps _ _ (fun h => a * ((s p.id).value + h) ^ 2 + b * ((s p.id).value + h) + c) ?_]
  · congr 1
    have : ∀ q ∈ steps, q.2 * (((a * ((s p.id).value + q.1) ^ 2 + b * ((s p.id).value + q.1) + c) -
        (a * ((s p.id).value + -q.1) ^ 2 + b * ((s p.id).value + -q.1) + c)) / (2 * q.1)) = q.2 * (2 * a * (s p.id).value + b) := by
      intro q hq
      have := h0 q hq
      field_simp
      ring
    rw [List.map_congr_left this, List.sum_map_mul_right, hw, one_mul]
  · intro q hq
    obtain ⟨h1, h2⟩ := hin q hq
    constructor
    · rw [hat, h1, hF]
    · rw [hat, h2, hF, sub_eq_add_neg]

/-- C92, at a limit. The estimate of the derivative of a linear function is one half of the derivative, whatever the steps (not larger
than the range) and the weights. -/
theorem gradient_halved_at_limit (ps : List Ref) (hp : Assignable ps) (hn : (ps.map (·.id)).Nodup) (j : Nat) (p : Ref) (hj : ps[j]? = some p) (s : Store)
    (F : (Nat → Rat) → Rat) (b c : Rat) (hF : ∀ t, F (Function.update (fun i => (s i).value) p.id t) = b * t + c)
    (steps : List (Rat × Rat)) (hw : (steps.map (·.2)).sum = 1) (l u : Rat) (hl : (s p.id).lower = some l) (hu : (s p.id).upper = some u)
    (hat : (s p.id).value = u) (hin : ∀ q ∈ steps, 0 < q.1 ∧ q.1 ≤ u - l) :
    (numerical ps (fun s => .ok (F fun i => (s i).value)) (central j steps) s).2 = .ok (b / 2) := by
  have hlen : (paramVals ps s).length = ps.length := by simp [paramVals]
  rw [numerical_result ps _ _ s hp (by rw [← hlen]; exact central_asks j steps _)]
  have hmv : ∀ g : Rat → Rat, (fun i => (at_ s ps ((paramVals ps s).modify j g) i).value) =
      Function.update (fun i => (s i).value) p.id (seen s p.id (g (s p.id).value)) := by
    intro g
    funext i
    rw [moved s ps j p hj hn g i, Function.update_apply]
    split
    · next h => subst h; rfl
    · rfl
  have hs : ∀ t, seen s p.id t = max (min t u) l := by
    intro t
    unfold seen Param.value Param.hasLimits Param.assign clip
    simp [hl, hu]
  rw [central_ideal j steps _ _ (fun h => b * max (min (u + h) u) l + c) ?_]
  · congr 1
    have : ∀ q ∈ steps, q.2 * (((b * max (min (u + q.1) u) l + c) - (b * max (min (u + -q.1) u) l + c)) / (2 * q.1)) = q.2 * (b / 2) := by
      intro q hq
      obtain ⟨h1, h2⟩ := hin q hq
      have e1 : max (min (u + q.1) u) l = u := by
        rw [min_eq_right (by linarith), max_eq_left (by linarith)]
      have e2 : max (min (u + -q.1) u) l = u - q.1 := by
        rw [min_eq_left (by linarith), max_eq_left (by linarith)]
        ring
      rw [e1, e2]
      field_simp
      ring
    rw [List.map_congr_left this, List.sum_map_mul_right, hw, one_mul]
  · intro q hq
    constructor
    · rw [hmv, hs, hF, hat]
    · rw [hmv, hs, hF, hat, sub_eq_add_neg]

/-! ## Counterexamples -/

/-- One parameter with the limits 0 and 1. -/
def one (v : Rat) : Store := fun _ => ⟨some 0, some 1, v⟩

/-- The reference to it. -/
def oneRef : Ref := { id := 0, name := "p", isParam := true, independent := true }

/-- The hypotheses of `gradient_exact` hold, and the result is right: the derivative of `p² + 3 p` at 1/2 with the steps 1/10 and 1/20. -/
example : (numerical [oneRef] (fun s => .ok ((s 0).value ^ 2 + 3 * (s 0).value)) (central 0 [(1 / 10, 1 / 4), (1 / 20, 3 / 4)]) (one (1 / 2))).2 = .ok 4 := by
  decide +kernel

/-- C92, counterexample. At the limit the derivative of `p` itself is reported as 1/2. -/
theorem gradient_at_limit_violated : (numerical [oneRef] (fun s => .ok (s 0).value) (central 0 [(1 / 10, 1)]) (one 1)).2 = .ok (1 / 2) := by
  decide +kernel

/-- C92, counterexample. If the function raises during the evaluation, the parameter keeps the value of the step: 1/2 becomes 3/5. -/
theorem exception_leaves_step_violated :
    let func : Func := fun s => if (s 0).value = 1 / 2 then .ok 0 else .error .userException
    (numerical [oneRef] func (central 0 [(1 / 10, 1)]) (one (1 / 2))).2 = .error .userException ∧
      ((numerical [oneRef] func (central 0 [(1 / 10, 1)]) (one (1 / 2))).1 0).value = 3 / 5 := by
  decide +kernel

/-- C92, counterexample. The deprecated name `numerical_value_gradients` never gives a result, for every depth of recursion. -/
theorem alias_recursion_violated {ρ : Type} (n : Nat) (s : Store) : (valueGradientsAlias n s : Store × Except Err ρ) = (s, .error .runtimeError) := by
  induction n with
  | zero => rfl
  | succ n ih => exact ih

/-- C92, counterexample. A gradient instead of the function is accepted by the checks but never used: a `TypeError` is raised. -/
theorem gradient_instead_of_func_violated {ρ σ : Type} (ps : List Ref) (libG : List Rat → Strategy ρ) (libH : List Rat → Strategy σ) (s : Store) :
    (valueGradientHessian (some ps) none true libG libH s).2 = .error .typeError ∧
      (valueGradientHessian (some ps) none false libG libH s).2 = .error .valueError := ⟨rfl, rfl⟩

end Zfit.Diff
