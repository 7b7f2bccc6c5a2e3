import Verif.Binned.Model

/-! Specification vocabulary for histograms: contents are looked up by the *name* of the axis. -/

namespace Zfit.Bin

open Zfit

/-- A binned object as it can be constructed: axes with distinct names, as many entries along each axis as it has
bins, variances (if there are any) of the same shape. -/
def Holder.Proper (h : Holder) : Prop :=
  h.space.obs.Nodup ∧ h.values.shape = h.space.axes.map (fun a => a.edges.length - 1) ∧
    ∀ v, h.variances = some v → v.shape = h.values.shape

/-- The entry of an array in the bin which has the index `f x` along the axis named `x`. -/
def byName (s : BSpace) (a : NDArr) (f : String → Nat) : Rat := a.get (s.obs.map f)

/-- Two histograms show the same contents, whatever the order of their axes. -/
def SameContents (h h' : Holder) : Prop :=
  (∀ f, byName h'.space h'.values f = byName h.space h.values f) ∧
  (h'.variances = none ↔ h.variances = none) ∧
  ∀ v v', h.variances = some v → h'.variances = some v' → ∀ f, byName h'.space v' f = byName h.space v f

/-- The order `t` arises from `o` by exchanging disjoint pairs: who stands at place `j` in the one order and at place
`i` in the other also does so the other way round. -/
def Exchanges (o t : List String) : Prop := ∀ i j : Nat, i < o.length → t[j]? = o[i]? → t[i]? = o[j]?

end Zfit.Bin

namespace Zfit.Bin

/-- Edges of an axis as they can be constructed: strictly increasing, at least one bin. -/
def GoodEdges (e : List Rat) : Prop := e.Pairwise (· < ·) ∧ 2 ≤ e.length

/-- The value lies in the `i`-th bin: bins contain their lower edge; the last one also contains its upper edge if
`incl`. -/
def inBin (incl : Bool) (edges : List Rat) (i : Nat) (x : Rat) : Bool :=
  match edges[i]?, edges[i + 1]? with
  | some lo, some hi => decide (lo ≤ x) && (decide (x < hi) || (incl && decide (x = hi) && decide (i + 2 = edges.length)))
  | _, _ => false

/-- The value lies between the first and the last edge. -/
def inRange (incl : Bool) (edges : List Rat) (x : Rat) : Bool :=
  match edges.head?, edges.getLast? with
  | some lo, some hi => decide (lo ≤ x) && (decide (x < hi) || (incl && decide (x = hi)))
  | _, _ => false

/-- Points with weights: events as values for every observable name. -/
abbrev WPoints := List ((String → Rat) × Rat)

/-- The event lies in the bin with index `f a` along the axis named `a`. -/
def BSpace.cell (s : BSpace) (incl : Bool) (f : String → Nat) (p : String → Rat) : Bool :=
  s.axes.all (fun a => inBin incl a.edges (f a.name) (p a.name))

/-- The event lies in the range of the binning. -/
def BSpace.covers (s : BSpace) (incl : Bool) (p : String → Rat) : Bool :=
  s.axes.all (fun a => inRange incl a.edges (p a.name))

/-- The sum of the weights of those events. -/
def sumWhere (c : (String → Rat) → Bool) (g : Rat → Rat) (pts : WPoints) : Rat :=
  ((pts.filter (fun e => c e.1)).map (fun e => g e.2)).sum

/-- A dataset that holds these events with these weights in the columns `obs`. -/
def UData.Holds (d : UData) (pts : WPoints) : Prop :=
  d.rows = pts.map (fun e => d.obs.map e.1) ∧ d.weights.getD (d.rows.map (fun _ => 1)) = pts.map (·.2)

/-- A binned space as it can be constructed. -/
def BSpace.Proper (s : BSpace) : Prop := s.obs.Nodup ∧ ∀ a ∈ s.axes, GoodEdges a.edges

/-- The sum of all entries. -/
def NDArr.total (a : NDArr) : Rat := ((allIdx a.shape).map a.get).sum

end Zfit.Bin
