import Verif.Pdf.Model

/-! What the overridden methods of a PDF are supposed to compute: a density `f` and its integrals `μ` over pieces. -/

namespace Zfit.Pdf

open Zfit

variable {X P : Type}

/-- The integral over a list of pieces. -/
def total (μ : P → ℝ) (n : List P) : ℝ := (n.map μ).sum

/-- The normalised (or not) density. -/
noncomputable def density (f : X → ℝ) (μ : P → ℝ) (x : X) : Norm P → ℝ
  | .range n => f x / total μ n
  | _ => f x

/-- The normalised (or not) integral. -/
noncomputable def integralOf (μ : P → ℝ) (limits : List P) : Norm P → ℝ
  | .range n => total μ limits / total μ n
  | _ => total μ limits

/-- A normalisation range over which the density has a positive integral (or no normalisation). -/
def Norm.Good (μ : P → ℝ) : Norm P → Prop
  | .range n => 0 < total μ n
  | _ => True

/-- What the decorator lets through to the overridden method (see `NHook.call`). -/
def NHook.Passes {A : Type} (h : NHook A P) : Norm P → Prop
  | .range n => h.all = true ∨ h.norms n = true
  | .falseSpace => h.all = true
  | .pyFalse => True

/-- The call gives the value `v`, or raises one of the exceptions `A`. -/
def Ans (A : Err → Prop) (r : Except Err ℝ) (v : ℝ) : Prop := r = .ok v ∨ ∃ e, r = .error e ∧ A e

def NotImpl (e : Err) : Prop := e = .functionNotImplemented

def NotAnalytic (e : Err) : Prop := e = .functionNotImplemented ∨ e = .analyticNotImplemented

/-- Every method the subclass overrides gives the right value wherever its decorator lets the call through and it answers, and otherwise raises a
"not implemented" exception; there is at least one way to evaluate the density; the numeric integration is taken to be
exact, and either handles several pieces or says that it does not. -/
structure Honest (m : Impl X P) (f : X → ℝ) (μ : P → ℝ) : Prop where
  pdf : ∀ h, m.pdf = some h → ∀ x norm, norm.Good μ → h.Passes norm → Ans NotImpl (h.impl x norm) (density f μ x norm)
  logPdf : ∀ h, m.logPdf = some h → ∀ x norm, 0 < f x → norm.Good μ → h.Passes norm →
    Ans NotImpl (h.impl x norm) (Real.log (density f μ x norm))
  extPdf : ∀ h y, m.extPdf = some h → m.yield = some y → ∀ x norm, norm.Good μ → h.Passes norm →
    Ans NotImpl (h.impl x norm) (y * density f μ x norm)
  yield : ∀ y, m.yield = some y → y ≠ 0
  complete : (∀ x, m.unnormalized x = .ok (f x)) ∨
    ∃ h, m.pdf = some h ∧ ∀ x norm, norm.Good μ → h.Passes norm → h.impl x norm = .ok (density f μ x norm)
  normalization : ∀ h, m.normalization = some h → h.all = true ∧
    ∀ n, 0 < total μ n → Ans NotImpl (h.impl () (.range n)) (total μ n)
  integrate : ∀ h, m.integrate = some h → ∀ limits norm, norm.Good μ → h.Passes norm →
    Ans NotImpl (h.impl limits norm) (integralOf μ limits norm)
  analytic : ∀ h, m.analytic = some h → ∀ limits norm, norm.Good μ → h.Passes norm →
    Ans NotAnalytic (h.impl limits norm) (integralOf μ limits norm)
  registered : ∀ limits h, m.registered limits = some h → ∀ norm, norm.Good μ → h.Passes norm →
    Ans NotAnalytic (h.impl limits norm) (integralOf μ limits norm)
  numeric : ∀ h, m.numeric = some h → ∀ limits norm, norm.Good μ → h.Passes norm →
    Ans NotImpl (h.impl limits norm) (integralOf μ limits norm)
  numInt : ∀ g, (∀ x, g x = .ok (f x)) → ∀ limits, m.numInt g limits = .ok (total μ limits) ∨
    (limits.length > 1 ∧ m.numInt g limits = .error .multipleLimitsNotImplemented)

end Zfit.Pdf
