import Verif.Loss.Model

/-! # Vocabulary for the properties of losses -/

namespace Zfit.Loss

variable {Θ X : Type}

/-- As many expected counts (and variances) as bins, in every parameter point: the model is evaluated in the binning of the data. -/
def CountsMatch (m : Mod Θ X) (d : Dat X) : Prop :=
  (∀ θ, (m.relCounts θ).length = d.values.length) ∧ (∀ c, m.counts = some c → ∀ θ, (c θ).length = d.values.length)
    ∧ (∀ v, d.variances = some v → v.length = d.values.length)

/-- A binned loss. -/
def Kind.binned : Kind → Bool
  | .unbinnedNLL | .extendedUnbinnedNLL => false
  | _ => true

/-- A chi2. -/
def Kind.chi2 : Kind → Bool
  | .binnedChi2 | .extendedBinnedChi2 => true
  | _ => false

/-- All the models and datasets of a binned loss have matching bins. -/
def Loss.BinsMatch (l : Loss Θ X) : Prop := l.kind.binned = true → ∀ p ∈ l.model.zip l.data, CountsMatch p.1 p.2

/-- As many models, datasets and fit ranges. -/
def Loss.Paired (l : Loss Θ X) : Prop := l.model.length = l.data.length ∧ l.fitRange.length = l.data.length

/-- The loss that evaluates to `v` in `θ`, whatever was evaluated before. -/
def Loss.HasValue (l : Loss Θ X) (θ : Θ) (v : ℝ) : Prop := ∀ s : State, (l.value s θ true).2 = .ok v

/-- The events of a dataset, each with its weight; without weights it is 1. -/
def Dat.events (d : Dat X) : List (X × ℝ) :=
  match d.weights with
  | none => d.points.map (fun x => (x, 1))
  | some w => d.points.zip w

/-- The events inside a fit range, if there is one. -/
def inside (r : Option (Range X)) (e : X × ℝ) : Bool :=
  match r with
  | none => true
  | some r => r e.1

end Zfit.Loss
