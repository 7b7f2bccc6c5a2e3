import Verif.Diff.Model
import Mathlib.Tactic.SplitIfs

/-! C93: the derivatives of a loss. -/

namespace Zfit.Diff

open Zfit

variable {γ η : Type}

/-! ## Specification -/

/-- The method by which a derivative was computed. -/
inductive Method
  | numerical
  | automatic
  /-- By the method of the subclass that is overridden. -/
  | own
  deriving DecidableEq

/-- A loss whose derivatives only say how they were computed; `og`, … say which methods are overridden. -/
def tracer (numgrad numhess og ovg oh ovgh : Bool) : Loss Method Method where
  value := fun _ => 0
  numgrad := numgrad
  numhess := numhess
  numG := fun _ => .ok .numerical
  numH := fun _ => .ok .numerical
  autoG := fun _ => .ok .automatic
  autoH := fun _ => .ok .automatic
  ownG := if og then some fun _ => .own else none
  ownVG := if ovg then some fun _ _ => (0, .own) else none
  ownH := if oh then some fun _ => .own else none
  ownVGH := if ovgh then some fun _ _ => (0, .own, .own) else none

/-- The method that the argument and the option ask for. -/
def asked (arg : Option Bool) (option : Bool) : Method := if arg.getD option then .numerical else .automatic

/-- All sources of the value and the derivatives agree: the subclass, the numerical and the automatic ones. -/
structure Consistent (l : Loss γ η) (G : γ) (H : η) : Prop where
  numG : ∀ f, l.numG f = .ok G
  autoG : ∀ f, l.autoG f = .ok G
  numH : ∀ f, l.numH f = .ok H
  autoH : ∀ f, l.autoH f = .ok H
  ownG : ∀ g, l.ownG = some g → ∀ n, g n = G
  ownVG : ∀ vg, l.ownVG = some vg → ∀ n f, vg n f = (l.value f, G)
  ownH : ∀ h, l.ownH = some h → ∀ n, h n = H
  ownVGH : ∀ vgh, l.ownVGH = some vgh → ∀ n f, vgh n f = (l.value f, G, H)

/-! ## Theorems -/

/-- C93. If the subclass, the numerical and the automatic derivatives agree, so do all four methods, with every argument and option, and
whichever methods are overridden. -/
theorem derivatives_agree (l : Loss γ η) (G : γ) (H : η) (h : Consistent l G H) (numgrad : Option Bool) (full : Bool) :
    l.gradient numgrad = .ok G ∧ l.valueGradient full numgrad = .ok (l.value full, G) ∧ l.hessian numgrad = .ok H ∧
      l.valueGradientHessian full numgrad = .ok (l.value full, G, H) := by
  have eG : ∀ n f, l.engineG n f = .ok G := by
    intro n f
    unfold Loss.engineG
    split
    · exact h.numG f
    · exact h.autoG f
  have eH : ∀ n f, l.engineH n f = .ok H := by
    intro n f
    unfold Loss.engineH
    split
    · exact h.numH f
    · exact h.autoH f
  have hVG : ∀ numgrad, l.valueGradient full numgrad = .ok (l.value full, G) := by
    intro numgrad
    unfold Loss.valueGradient
    cases hv : l.ownVG with
    | some vg => simp only; rw [h.ownVG vg hv]
    | none =>
      cases hg : l.ownG with
      | some g => simp only; rw [h.ownG g hg]
      | none => simp only; rw [eG]; rfl
  refine ⟨?_, hVG numgrad, ?_, ?_⟩
  · unfold Loss.gradient
    cases hg : l.ownG with
    | some g => simp only; rw [h.ownG g hg]
    | none =>
      cases hv : l.ownVG with
      | some vg => simp only; rw [h.ownVG vg hv]
      | none => exact eG _ _
  · unfold Loss.hessian
    cases hh : l.ownH with
    | some g => simp only; rw [h.ownH g hh]
    | none =>
      cases hv : l.ownVGH with
      | some vg => simp only; rw [h.ownVGH vg hv]
      | none => exact eH _ _
  · unfold Loss.valueGradientHessian
    cases hv : l.ownVGH with
    | some vg => simp only; rw [h.ownVGH vg hv]
    | none =>
      cases hh : l.ownH with
      | some g => simp only; rw [hVG, h.ownH g hh]; rfl
      | none => simp only; rw [eG, eH]; rfl

/-- A loss of one parameter with all methods overridden. -/
def allOwn : Loss Rat Rat where
  value := fun f => if f then 5 else 2
  numgrad := false
  numhess := true
  numG := fun _ => .ok 3
  numH := fun _ => .ok 4
  autoG := fun _ => .ok 3
  autoH := fun _ => .ok 4
  ownG := some fun _ => 3
  ownVG := some fun _ f => (if f then 5 else 2, 3)
  ownH := some fun _ => 4
  ownVGH := some fun _ f => (if f then 5 else 2, 3, 4)

/-- The hypothesis holds. -/
example : Consistent allOwn 3 4 where
  numG _ := rfl
  autoG _ := rfl
  numH _ := rfl
  autoH _ := rfl
  ownG _ h _ := by cases h; rfl
  ownVG _ h _ _ := by cases h; rfl
  ownH _ h _ := by cases h; rfl
  ownVGH _ h _ _ := by cases h; rfl

/-- C93. Without overridden methods the gradient and the Hessian are computed by the method that the argument asks for. Missing from the
full claim: the cases of `value_gradient_argument_violated`, `hessian_option_violated`, `overridden_gradient_violated`,
`simple_loss_automatic_violated`, `simple_loss_create_new_violated`. -/
theorem derivative_method_partial (numgrad numhess : Bool) (arg : Bool) (full : Bool) :
    (tracer numgrad numhess false false false false).gradient (some arg) = .ok (asked (some arg) numgrad) ∧
    (tracer numgrad numhess false false false false).hessian (some arg) = .ok (asked (some arg) numhess) ∧
    (tracer numgrad numhess false false false false).valueGradientHessian full (some arg) =
      .ok (0, asked (some arg) numgrad, asked (some arg) numhess) := by
  cases arg <;> simp [tracer, Loss.gradient, Loss.hessian, Loss.valueGradientHessian, Loss.engineG, Loss.engineH, asked] <;> rfl

/-- C93. Without the argument, the gradient alone or with the value is computed by the method of the option. Missing from the full claim:
the cases of `value_gradient_argument_violated`, `hessian_option_violated`, `overridden_gradient_violated`,
`simple_loss_automatic_violated`, `simple_loss_create_new_violated`. -/
theorem derivative_option_partial (numgrad numhess : Bool) (full : Bool) :
    (tracer numgrad numhess false false false false).gradient none = .ok (asked none numgrad) ∧
    (tracer numgrad numhess false false false false).valueGradient full none = .ok (0, asked none numgrad) := by
  cases numgrad <;> simp [tracer, Loss.gradient, Loss.valueGradient, Loss.engineG, asked] <;> rfl

/-- C93. An overridden method is used by the public method of the same name, and by those that contain it, whatever the arguments: the
gradient by `gradient` and (unless the value with the gradient is overridden too) by `value_gradient`, and vice versa; the Hessian by
`hessian` and `value_gradient_hessian`. -/
theorem overridden_used (numgrad numhess ovg oh : Bool) (arg : Option Bool) (full : Bool) :
    (tracer numgrad numhess true ovg oh false).gradient arg = .ok .own ∧
    (tracer numgrad numhess true ovg oh false).valueGradient full arg = .ok (0, .own) ∧
    (tracer numgrad numhess false true oh false).gradient arg = .ok .own ∧
    (tracer numgrad numhess false true oh false).valueGradient full arg = .ok (0, .own) ∧
    (tracer numgrad numhess false ovg true false).hessian arg = .ok .own ∧
    ((tracer numgrad numhess false ovg true false).valueGradientHessian full arg).map (fun r => r.2.2) = .ok .own ∧
    (tracer numgrad numhess false ovg false true).hessian arg = .ok .own ∧
    (tracer numgrad numhess false ovg false true).valueGradientHessian full arg = .ok (0, .own, .own) := by
  cases numgrad <;> cases ovg <;> cases oh <;> refine ⟨rfl, rfl, rfl, rfl, rfl, rfl, rfl, rfl⟩

/-- C93, counterexample. `value_gradient(numgrad=True)` uses the automatic gradient if the option says so: the argument is ignored. -/
theorem value_gradient_argument_violated (numgrad numhess : Bool) (arg : Option Bool) (full : Bool) :
    (tracer numgrad numhess false false false false).valueGradient full arg = .ok (0, asked none numgrad) ∧
    (tracer false numhess false false false false).valueGradient full (some true) = .ok (0, .automatic) := by
  cases numgrad <;> exact ⟨rfl, rfl⟩

/-- C93, counterexample. `hessian()` ignores the option for the Hessian, it uses the one for the gradient; `value_gradient_hessian()` uses the
one for the Hessian also for the gradient. With the defaults (automatic gradient, numerical Hessian) both are wrong. -/
theorem hessian_option_violated (full : Bool) :
    (tracer false true false false false false).hessian none = .ok .automatic ∧
    (tracer false true false false false false).valueGradientHessian full none = .ok (0, .numerical, .numerical) := ⟨rfl, rfl⟩

/-- C93, counterexample. An overridden gradient is not used by `value_gradient_hessian`. -/
theorem overridden_gradient_violated (numgrad numhess ovg : Bool) (arg : Option Bool) (full : Bool) :
    (tracer numgrad numhess true ovg false false).valueGradientHessian full arg = .ok (0, asked arg numhess, asked arg numhess) := by
  cases numhess <;> rcases arg with _ | _ | _ <;> rfl

/-! ### `SimpleLoss` -/

/-- C93. The derivatives of a `SimpleLoss` are the functions given, or numerical; a string other than `num` and `zfit` is rejected. -/
theorem simple_loss_derivatives (v : Rat) (numG : Except Err γ) (numH : Except Err η) (arg : Option Bool) :
    (∀ f h l, simpleLoss v numG numH (.fn f) h = .ok l → l.gradient arg = .ok f) ∧
    (∀ g f l, simpleLoss v numG numH g (.fn f) = .ok l → l.hessian arg = .ok f) ∧
    (∀ g, (g = How.default ∨ g = How.str "num") → ∀ h l, simpleLoss v numG numH g h = .ok l → l.gradient none = numG) ∧
    (∀ s h, s ≠ "num" → s ≠ "zfit" → simpleLoss v numG numH (.str s) h = .error .valueError) := by
  refine ⟨?_, ?_, ?_, ?_⟩
  · intro f h l hl
    unfold simpleLoss How.resolve at hl
    cases h with
    | default => simp [bind, Except.bind] at hl; subst hl; rfl
    | fn h => simp [bind, Except.bind] at hl; subst hl; rfl
    | str s =>
      by_cases h1 : s = "num"
      · simp [bind, Except.bind, h1] at hl; subst hl; rfl
      · by_cases h2 : s = "zfit"
        · simp [bind, Except.bind, h2] at hl; subst hl; rfl
        · simp [bind, Except.bind, h1, h2] at hl
  · intro g f l hl
    unfold simpleLoss How.resolve at hl
    cases g with
    | default => simp [bind, Except.bind] at hl; subst hl; rfl
    | fn h => simp [bind, Except.bind] at hl; subst hl; rfl
    | str s =>
      by_cases h1 : s = "num"
      · simp [bind, Except.bind, h1] at hl; subst hl; rfl
      · by_cases h2 : s = "zfit"
        · simp [bind, Except.bind, h2] at hl; subst hl; rfl
        · simp [bind, Except.bind, h1, h2] at hl
  · intro g hg h l hl
    have : g.resolve = .ok (true, none) := by rcases hg with rfl | rfl <;> rfl
    unfold simpleLoss at hl
    rw [this] at hl
    cases hh : h.resolve with
    | error e => simp [bind, Except.bind, hh] at hl
    | ok r => simp [bind, Except.bind, hh] at hl; subst hl; rfl
  · intro s h h1 h2
    simp [simpleLoss, How.resolve, h1, h2, bind, Except.bind]

/-- C93, counterexample. A `SimpleLoss` with `gradient="zfit"` (automatic) can never give a gradient. -/
theorem simple_loss_automatic_violated (v : Rat) (numG : Except Err γ) (numH : Except Err η) :
    ∃ l, simpleLoss v numG numH (.str "zfit") .default = .ok l ∧ l.gradient none = .error .workInProgress ∧
      ∀ full arg, l.valueGradient full arg = .error .workInProgress :=
  ⟨_, rfl, rfl, fun _ _ => rfl⟩

/-- C93, counterexample. `create_new` of a `SimpleLoss` forgets the gradient function. -/
theorem simple_loss_create_new_violated (v : Rat) (numG : Except Err γ) (numH : Except Err η) (f : γ) (h : How η) :
    ∃ l, simpleCreateNew v numG numH (.fn f) h = .ok l ∧ l.gradient none = numG := ⟨_, rfl, rfl⟩

end Zfit.Diff
