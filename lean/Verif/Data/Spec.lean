import Verif.Data.Model

/-! Specification vocabulary for datasets: events are points, i.e. a value for every observable name. -/

namespace Zfit.Dat

open Zfit

/-- The array with one row per event and one column per observable. -/
def table (obs : List String) (pts : List (String → Rat)) : List (List Rat) := pts.map (fun p => obs.map p)

/-- The point lies in the (union of the) limits of the space; without limits every point does. -/
def DSpace.contains (s : DSpace) (p : String → Rat) : Bool :=
  match s.lims with
  | none => true
  | some ls => ls.any (fun b => (s.obs.zip b).all (fun e => decide (e.2.1 ≤ p e.1) && decide (p e.1 ≤ e.2.2)))

/-- A space as it can be constructed: at least one observable, none twice, every leaf has one interval for each. -/
def DSpace.Proper (s : DSpace) : Prop :=
  s.obs ≠ [] ∧ s.obs.Nodup ∧ ∀ ls, s.lims = some ls → ∀ b ∈ ls, b.length = s.obs.length

/-- The space has at most one leaf, i.e. it is not a `MultiSpace`. -/
def DSpace.Single (s : DSpace) : Prop := ∀ ls, s.lims = some ls → ls.length = 1

/-- Weights, if there are any, are one per event. -/
def Weighted (pts : List (String → Rat)) (w : Option (List Rat)) : Prop := ∀ l, w = some l → l.length = pts.length

/-- The weights of the events for which `keep` holds. -/
def keptWeights (keep : (String → Rat) → Bool) (pts : List (String → Rat)) (w : Option (List Rat)) :
    Option (List Rat) := w.map (fun l => ((pts.zip l).filter (fun e => keep e.1)).map (·.2))

/-- What a user sees of the data: the weights are `w`, and in every sequence of reads of (non-empty lists of)
observables each read returns the columns asked for, in the order asked for, of the events `pts`. -/
def Data.Shows (d : Data) (pts : List (String → Rat)) (w : Option (List Rat)) : Prop :=
  d.weights = w ∧ ∀ reads : List (Option (List String)),
    (∀ l, some l ∈ reads → l ≠ [] ∧ ∀ o ∈ l, o ∈ d.space.obs) →
    d.readAll reads = .ok (reads.map (fun l => ⟨(l.getD d.space.obs).length, table (l.getD d.space.obs) pts⟩))

end Zfit.Dat
