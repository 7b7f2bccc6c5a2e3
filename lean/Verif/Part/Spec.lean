import Verif.Part.Model
import Verif.Pdf.Spec
import Verif.Num.McProps

/-! What partial integration is supposed to give: `ν y q` is the integral over the piece `q` at the event `y`, `μ p` the
integral over a piece in all observables. -/

namespace Zfit.Part

open Zfit Zfit.Pdf

variable {X Y P Q : Type}

/-- The partial integral over a list of pieces, normalised (or not). -/
noncomputable def partialOf (ν : Y → Q → ℝ) (μ : P → ℝ) (y : Y) (limits : List Q) : Pdf.Norm P → ℝ
  | .range n => total (ν y) limits / total μ n
  | _ => total (ν y) limits

/-- Every method the subclass overrides gives the right value wherever its decorator lets the call through and it answers, and
otherwise raises a "not implemented" exception; the numeric integration over one piece is taken to be exact. -/
structure Honest (m : Impl X Y P Q) (f : X → ℝ) (μ : P → ℝ) (ν : Y → Q → ℝ) : Prop where
  base : Pdf.Honest m.base f μ
  part : ∀ h, m.part = some h → ∀ y limits norm, norm.Good μ → h.Passes norm →
    Ans NotImpl (h.impl (y, limits) norm) (partialOf ν μ y limits norm)
  analytic : ∀ h, m.analytic = some h → ∀ y limits norm, norm.Good μ → h.Passes norm →
    Ans NotAnalytic (h.impl (y, limits) norm) (partialOf ν μ y limits norm)
  registered : ∀ limits h, m.registered limits = some h → ∀ y norm, norm.Good μ → h.Passes norm →
    Ans NotAnalytic (h.impl (y, limits) norm) (partialOf ν μ y limits norm)
  numeric : ∀ h, m.numeric = some h → ∀ y limits norm, norm.Good μ → h.Passes norm →
    Ans NotImpl (h.impl (y, limits) norm) (partialOf ν μ y limits norm)
  numInt : ∀ g, (∀ x, g x = .ok (f x)) → ∀ y q, m.numInt g y q = .ok (ν y q)

/-- A registered integral answers whenever it is called: it does not raise on its own. -/
def Answering (m : Impl X Y P Q) (μ : P → ℝ) (ν : Y → Q → ℝ) : Prop :=
  ∀ limits h, m.registered limits = some h → ∀ y norm, norm.Good μ → h.Passes norm →
    h.impl (y, limits) norm = .ok (partialOf ν μ y limits norm)

/-- The value of an observable at a point where some observables are integrated over and the others are those of the event. -/
noncomputable def coordinate (limits : List (String × ℝ × ℝ)) (x : List (String × ℝ)) (u : String → ℝ) (o : String) : ℝ :=
  match dictGet limits o with
  | some l => l.1 + u o * (l.2 - l.1)
  | none => (dictGet x o).getD 0

/-- The limits and the event together have every observable of the model, each in exactly one of them. -/
structure Complementary (obs : List String) (limits : List (String × ℝ × ℝ)) (x : List (String × ℝ)) : Prop where
  cover : ∀ o ∈ obs, o ∈ limits.map (·.1) ∨ o ∈ x.map (·.1)
  disjoint : ∀ o, o ∈ limits.map (·.1) → o ∉ x.map (·.1)
  known : ∀ o ∈ limits.map (·.1), o ∈ obs
  once : (limits.map (·.1)).Nodup

end Zfit.Part
