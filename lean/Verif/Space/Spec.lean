import Verif.Space.Model
import Mathlib.Algebra.BigOperators.Group.List.Basic

/-! Specification vocabulary for spaces: positions that move together, and points in a box. -/

namespace Zfit.Sp

open Zfit Zfit.Coord

/-- `l'` consists of the entries of `l` at the positions `idx`, in this order (all positions exist). -/
def Picks {α : Type} (idx : List Nat) (l l' : List α) : Prop := idx.map (l[·]?) = l'.map some

/-- The event `row` lies in the closed box with lower corner `lo` and upper corner `hi`. -/
def inBox (lo hi row : List Rat) : Bool :=
  (row.zip (lo.zip hi)).all (fun p => decide (p.2.1 ≤ p.1) && decide (p.1 ≤ p.2.2))

/-- The lists of a request contain no coordinate twice. -/
def SReq.Distinct : SReq → Prop
  | .withObs (some l) _ _ => l.Nodup
  | .withAxes (some l) _ _ => l.Nodup
  | .withCoords c _ _ => (∀ l, c.obs = some l → l.Nodup) ∧ ∀ l, c.axes = some l → l.Nodup
  | .subObs l => l.Nodup
  | .subAxes l => l.Nodup
  | _ => True

/-- The request is meaningful for a space with these coordinates: a subspace by observables (axes) is asked of a space
that has observables (axes), and axes are not overwritten by counting. -/
def SReq.Meaningful (c : Coords) : SReq → Prop
  | .autofill true => c.axes = none
  | .subObs _ => c.obs ≠ none
  | .subAxes _ => c.axes ≠ none
  | _ => True

/-- Every request of the chain is meaningful for the space it is made on. -/
def MeaningfulChain : Space → List SReq → Prop
  | _, [] => True
  | s, r :: rs => r.Meaningful s.coords ∧ ∀ s', s.apply r = .ok s' → MeaningfulChain s' rs

/-- Requests that remove the observables. -/
def SReq.DropsObs : SReq → Prop
  | .withObs none _ _ => True
  | _ => False

/-- Requests that remove the axes or replace them by other ones. -/
def SReq.DropsAxes : SReq → Prop
  | .withAxes none _ _ => True
  | .withCoords c _ _ => c.obs ≠ none ∧ c.axes ≠ none
  | _ => False

/-! ### Boxes by name -/

/-- A box in named coordinates: observable, lower and upper limit. -/
abbrev Box := List (String × Rat × Rat)

/-- The point with coordinates `p` lies in the closed box. -/
def Box.contains (b : Box) (p : String → Rat) : Bool := b.all (fun e => decide (e.2.1 ≤ p e.1) && decide (p e.1 ≤ e.2.2))

/-- The volume of a box. -/
def Box.volume (b : Box) : Rat := (b.map (fun e => e.2.2 - e.2.1)).prod

end Zfit.Sp
