import Verif.Fun.IntModel
import Verif.Fun.Props
import Mathlib.Analysis.SpecialFunctions.Integrals.Basic

/-!
# The analytic integral of a sum of functions

* C153 `sum_integral_partial`, `sum_integral_violated`
-/

namespace Zfit.Fun

open Zfit

variable {R I : Type}

/-- An integral over boxes: `int obs lims v` is the integral over the observables `obs`, each in its limits, of the function `v` of
the values of the observables.  All that is used: it is additive, and the order of the observables does not matter. -/
structure Integration (R I : Type) [AddCommMonoid R] where
  int : List String → (String → I) → ((String → R) → R) → R
  integrable : List String → (String → I) → ((String → R) → R) → Prop
  zero : ∀ obs L, integrable obs L (fun _ => 0) ∧ int obs L (fun _ => 0) = 0
  add : ∀ obs L v w, integrable obs L v → integrable obs L w →
    integrable obs L (fun x => v x + w x) ∧ int obs L (fun x => v x + w x) = int obs L v + int obs L w
  perm : ∀ obs obs' L v, obs.Perm obs' → (integrable obs L v ↔ integrable obs' L v) ∧ int obs L v = int obs' L v

theorem sortLimits_ok (obs : List String) (lims : List (String × I)) (L : String → I) (h : ∀ o ∈ obs, dictGet lims o = some (L o)) :
    sortLimits obs lims = obs.map (fun o => (o, L o)) := by
  unfold sortLimits
  induction obs with
  | nil => rfl
  | cons a obs ih =>
    rw [List.filterMap_cons, h a List.mem_cons_self, ih (fun o ho => h o (List.mem_cons_of_mem _ ho))]
    rfl

variable [AddCommMonoid R]

/-- C153, the part that holds: if the functions have the same observables (in any order) and the registered integrals are right, the
analytic integral of the sum is the integral of the sum of the functions. Missing from the full claim: the cases of `sum_integral_violated`. -/
theorem sum_integral_partial (N : Integration R I) (obs : List String) (L : String → I) (lims : List (String × I))
    (hl : ∀ o ∈ obs, dictGet lims o = some (L o)) (fs : List (AFunc R I × ((String → R) → R)))
    (hobs : ∀ f ∈ fs, f.1.obs.Perm obs)
    (hint : ∀ f ∈ fs, N.integrable f.1.obs L f.2)
    (hright : ∀ f ∈ fs, ∃ g, f.1.analytic = some g ∧ g (f.1.obs.map L) = .ok (N.int f.1.obs L f.2)) :
    sumIntegral obs (fs.map (·.1)) lims = .ok (N.int obs L (fun x => (fs.map (fun f => f.2 x)).sum)) := by
  have hsort := sortLimits_ok obs lims L hl
  have each : ∀ f ∈ fs, f.1.integral (obs.map (fun o => (o, L o))) = .ok (N.int obs L f.2) := by
    intro f hf
    obtain ⟨g, hg, hv⟩ := hright f hf
    have h1 : sortLimits f.1.obs (obs.map (fun o => (o, L o))) = f.1.obs.map (fun o => (o, L o)) :=
      sortLimits_ok _ _ L (fun o ho => dictGet_map obs L ((hobs f hf).mem_iff.1 ho))
    unfold AFunc.integral
    simp only [hg, h1, List.map_map, Function.comp_def, List.map_id', if_true]
    rw [hv, (N.perm _ _ L f.2 (hobs f hf)).2]
  have hi : ∀ f ∈ fs, N.integrable obs L f.2 := fun f hf => (N.perm _ _ L f.2 (hobs f hf)).1.1 (hint f hf)
  have hsum : N.integrable obs L (fun x => (fs.map (fun f => f.2 x)).sum)
      ∧ N.int obs L (fun x => (fs.map (fun f => f.2 x)).sum) = (fs.map (fun f => N.int obs L f.2)).sum := by
    clear each hobs hint hright
    induction fs with
    | nil => simpa using N.zero obs L
    | cons f fs ih =>
      obtain ⟨h1, h2⟩ := ih (fun f' h' => hi f' (List.mem_cons_of_mem _ h'))
      obtain ⟨h3, h4⟩ := N.add obs L f.2 _ (hi f List.mem_cons_self) h1
      refine ⟨by simpa using h3, ?_⟩
      simp only [List.map_cons, List.sum_cons]
      rw [h4, h2]
  unfold sumIntegral
  dsimp only
  rw [hsort, hsum.2, mapM_ok_of_forall _ (fun f => (f.analytic.bind (fun g => (g (f.obs.map L)).toOption)).getD 0) _ ?_]
  · rw [except_bind_ok, List.map_map]
    congr 2
    refine List.map_congr_left (fun f hf => ?_)
    obtain ⟨g, hg, hv⟩ := hright f hf
    simp [hg, hv, Except.toOption, (N.perm _ _ L f.2 (hobs f hf)).2]
  · intro a ha
    obtain ⟨f, hf, rfl⟩ := List.mem_map.1 ha
    rw [each f hf]
    obtain ⟨g, hg, hv⟩ := hright f hf
    simp [hg, hv, Except.toOption, (N.perm _ _ L f.2 (hobs f hf)).2]

/-- The function 1 of the observable `o`, with its analytic integral: the length. -/
noncomputable def one (o : String) : AFunc ℝ (ℝ × ℝ) := ⟨[o], some (fun l => match l with
  | [(a, b)] => .ok (b - a)
  | _ => .error .valueError)⟩

/-- C153 is false for functions with different observables: the integral over an observable that a function does not depend on
is missing.  For the sum of the functions 1 of "x" and 1 of "y" over `[0, 2] × [0, 3]` the result is 5, the integral is 12. -/
theorem sum_integral_violated :
    sumIntegral ["x", "y"] [one "x", one "y"] [("x", (0, 2)), ("y", (0, 3))] = .ok 5
    ∧ (∀ o : String, ∀ a b : ℝ, (one o).integral [(o, (a, b))] = .ok (∫ _ in a..b, (1 : ℝ)))
    ∧ (∫ _ in (0 : ℝ)..2, ∫ _ in (0 : ℝ)..3, ((1 : ℝ) + 1)) = 12 := by
  refine ⟨?_, fun o a b => ?_, ?_⟩
  · have h1 : ∀ o, o = "x" ∨ o = "y" → sortLimits ["x", "y"] [("x", ((0 : ℝ), (2 : ℝ))), ("y", (0, 3))] = [("x", (0, 2)), ("y", (0, 3))] := by
      intro o _
      simp [sortLimits, dictGet]
    unfold sumIntegral
    dsimp only
    rw [h1 "x" (.inl rfl)]
    simp [AFunc.integral, one, sortLimits, dictGet]
    norm_num
  · simp [AFunc.integral, one, sortLimits, dictGet]
  · simp
    norm_num

/-- The hypotheses of `sum_integral_partial` are met: with the length as integral over one observable, for constant functions. -/
example : ∃ N : Integration ℚ (ℚ × ℚ), ∃ fs : List (AFunc ℚ (ℚ × ℚ) × ((String → ℚ) → ℚ)),
    (∀ f ∈ fs, f.1.obs.Perm ["x"]) ∧ (∀ f ∈ fs, N.integrable f.1.obs (fun _ => (0, 2)) f.2)
    ∧ (∀ f ∈ fs, ∃ g, f.1.analytic = some g ∧ g (f.1.obs.map (fun _ => (0, 2))) = .ok (N.int f.1.obs (fun _ => (0, 2)) f.2))
    ∧ fs.length = 2 := by
  refine ⟨⟨fun obs L v => v (fun _ => 0) * (obs.map (fun o => (L o).2 - (L o).1)).prod, fun _ _ _ => True, by simp,
      fun _ _ _ _ _ _ => ⟨trivial, by ring⟩, fun obs obs' L v h => ⟨Iff.rfl, by rw [(h.map _).prod_eq]⟩⟩,
    [(⟨["x"], some (fun l => .ok ((l.map (fun l => l.2 - l.1)).prod))⟩, fun _ => 1),
      (⟨["x"], some (fun l => .ok (3 * (l.map (fun l => l.2 - l.1)).prod))⟩, fun _ => 3)], by simp, by simp, ?_, rfl⟩
  intro f hf
  simp only [List.mem_cons, List.not_mem_nil, or_false] at hf
  rcases hf with rfl | rfl
  · exact ⟨_, rfl, by simp⟩
  · exact ⟨_, rfl, by simp⟩

end Zfit.Fun
