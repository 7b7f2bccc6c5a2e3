import Verif.Smp.Model

/-! Specification vocabulary for samplers. -/

namespace Zfit.Smp

open Zfit Zfit.Bin

/-- The pairs a user gave as values of parameters. -/
def PVals.pairs : PVals → List (PKey × Rat)
  | .mapping l => l
  | .result l => l
  | _ => []

/-- The value given for a name (by the name or by the parameter); of several the last one. -/
def lastGiven (l : List (PKey × Rat)) (name : String) : Option Rat :=
  (l.reverse.find? (fun kv => kv.1.name = name)).map (·.2)

/-- The number of bins of each axis. -/
def bins (s : BSpace) : List Nat := s.axes.map (fun a => a.edges.length - 1)

/-- Contents and variances have one entry for each bin. -/
def BSampler.Fits (st : BSampler) : Prop :=
  st.values.shape = bins st.space ∧ ∀ v, st.variances = some v → v.shape = bins st.space

/-- The content of the bin with the index `c o` along each observable `o`. -/
def content (obs : List String) (a : NDArr) (c : String → Nat) : Rat := a.get (obs.map c)

/-- All events of the sampler are inside its space. -/
def USampler.Inside (st : USampler) : Prop := ∀ row ∈ st.core.sample.rows, st.core.space.insideRow row = true

/-- An axis that zfit supports: named, and regular without transformation (with at least one bin) or with given edges. -/
def HAxis.Supported : HAxis → Prop
  | .regular name bins _ _ transformed => name ≠ "" ∧ 0 < bins ∧ transformed = false
  | .variable name _ => name ≠ ""
  | .other _ => False

/-- There is one content for each bin, and variances, if there are any, as well. -/
def HData.Fits (d : HData) : Prop :=
  d.values.shape = d.axes.map (fun a => a.edges.length - 1) ∧ ∀ v, d.variances = .given v → v.shape = d.values.shape

end Zfit.Smp
