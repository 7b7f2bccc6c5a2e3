import Verif.Common.Py
import Mathlib.Data.Rat.Floor
import Mathlib.Data.List.Sort

/-!
# Model of binned data: /repo/zfit/_data/binneddatav1.py, /repo/zfit/core/binning.py, /repo/zfit/util/binning.py

Numbers are rationals instead of floats.  Arrays are a shape together with the entry at every index.
-/

namespace Zfit.Bin

open Zfit

/-- A named axis of a binning (_variables/axis.py:77-84); regular axes are given by their edges as well. -/
structure Axis where
  name : String
  edges : List Rat
  deriving DecidableEq, Repr

/-- A binned `Space`, as far as binned data uses it: the axes in the order of the observables (space.py:1390). -/
structure BSpace where
  axes : List Axis
  deriving DecidableEq, Repr

/-- `space.obs`: the names of the axes agree with the observables (space.py:1380-1390). -/
def BSpace.obs (s : BSpace) : List String := s.axes.map (·.name)

/-- `binning[ob]`: the first axis with that name. -/
def BSpace.axis (s : BSpace) (ob : String) : Except Err Axis :=
  match s.axes.find? (fun a => a.name = ob) with
  | some a => .ok a
  | none => .error .keyError

/-- `Space.with_obs` (space.py:1926-1938) for a binned space and `obs` not `None` (the default allows sub- and
supersets): the axes asked for, in that order. -/
def BSpace.withObs (s : BSpace) (req : List String) : Except Err BSpace :=
  if ¬ (req.any (· ∈ s.obs)) then .error .obsIncompatible
  else do
    let axes ← (req.filter (· ∈ s.obs)).mapM s.axis
    return ⟨axes⟩

/-- A dense array. Only the indices below the shape matter. -/
structure NDArr where
  shape : List Nat
  get : List Nat → Rat

/-- `transpose(values, order)`: axis `k` of the result is axis `order[k]` of the input. -/
def NDArr.transpose (a : NDArr) (order : List Nat) : NDArr :=
  ⟨order.map (fun i => a.shape.getD i 0), fun idx => a.get ((List.range order.length).map (fun i => idx.getD (order.idxOf i) 0))⟩

/-- Python's `l.insert(i, x)`; beyond the end it appends. -/
def pyInsert (l : List Nat) (i x : Nat) : List Nat := l.take i ++ x :: l.drop i

/-- The order computed by numpy's `moveaxis`: the axes not in `source`, then every source is inserted at its
destination in ascending order of destination. -/
def moveaxisOrder (n : Nat) (source dest : List Nat) : List Nat :=
  ((dest.zip source).insertionSort (fun a b => a.1 ≤ b.1)).foldl (fun order p => pyInsert order p.1 p.2)
    ((List.range n).filter (· ∉ source))

/-- numpy's `moveaxis`; repeated destinations raise. -/
def NDArr.moveaxis (a : NDArr) (source dest : List Nat) : Except Err NDArr :=
  if dest.Nodup then .ok (a.transpose (moveaxisOrder a.shape.length source dest)) else .error .valueError

/-- `move_axis_obs` (binneddatav1.py:140-146) for one of the two arrays. -/
def moveAxisObs (original target : List String) (values : NDArr) : Except Err NDArr := do
  let newAxes ← target.mapM (pyIndex original)
  values.moveaxis (List.range target.length) newAxes

/-- `BinnedHolder` (binneddatav1.py:57-64). -/
structure Holder where
  space : BSpace
  values : NDArr
  variances : Option NDArr

/-- `BinnedHolder.__init__` with `_check_init_values` (binneddatav1.py:60-88). -/
def Holder.make (space : BSpace) (values : NDArr) (variances : Option NDArr) : Except Err Holder :=
  let edgesShape := space.axes.map (fun a => a.edges.length)
  let checkVariances : Except Err Unit := match variances with
    | none => .ok ()
    | some v =>
      if values.shape.length ≠ v.shape.length then .error .shapeIncompatible
      else if v.shape ≠ values.shape then .error .invalidArgument else .ok ()
  do
    checkVariances
    if space.axes.length ≠ values.shape.length then .error .shapeIncompatible
    else if edgesShape.map (· - 1) ≠ values.shape then .error .invalidArgument
    else .ok ⟨space, values, variances⟩

/-- The variances part of `move_axis_obs` (binneddatav1.py:144-145). -/
def moveAxisObs? (original target : List String) (variances : Option NDArr) : Except Err (Option NDArr) :=
  match variances with
  | none => .ok none
  | some v => (moveAxisObs original target v).map some

/-- `BinnedHolder.with_obs` (binneddatav1.py:108-116), also `BinnedData.with_obs` (286-292). -/
def Holder.withObs (h : Holder) (req : List String) : Except Err Holder := do
  let space ← h.space.withObs req
  let values ← moveAxisObs h.space.obs space.obs h.values
  let variances ← moveAxisObs? h.space.obs space.obs h.variances
  Holder.make space values variances

/-! ### Filling histograms -/

/-- The bin of a value on a `hist.axis.Variable` without flow bins (external): the bins are half open; whether the
upper edge of the last bin belongs to it depends on the library version and is the parameter `incl`. -/
def findBin (incl : Bool) (edges : List Rat) (x : Rat) : Option Nat :=
  match edges with
  | [] => none
  | e0 :: rest =>
    if x < e0 then none
    else if incl ∧ x = rest.getLastD e0 then some (rest.length - 1)
    else
      let i := (rest.takeWhile (fun e => decide (e ≤ x))).length
      if i < rest.length then some i else none

/-- The bin of a row: one bin index per axis, or none if a value is outside. -/
def rowBin (incl : Bool) (edges : List (List Rat)) (row : List Rat) : Option (List Nat) :=
  (edges.zip row).mapM (fun p => findBin incl p.1 p.2)

/-- Filling one row with its weight: the `Weight` storage adds the weight to the content and its square to the
variance of the bin. -/
def fillRow (incl : Bool) (edges : List (List Rat)) (acc : (List Nat → Rat) × (List Nat → Rat)) (row : List Rat × Rat) :
    (List Nat → Rat) × (List Nat → Rat) :=
  match rowBin incl edges row.1 with
  | none => acc
  | some idx => (fun j => if j = idx then acc.1 j + row.2 else acc.1 j,
      fun j => if j = idx then acc.2 j + row.2 * row.2 else acc.2 j)

/-- `unbinned_to_hist_eager` (core/binning.py:31-48): fills the histogram with the rows of the data and returns the
contents and the variances. -/
def toHist (incl : Bool) (edges : List (List Rat)) (rows : List (List Rat × Rat)) : NDArr × NDArr :=
  let shape := edges.map (fun e => e.length - 1)
  let r := rows.foldl (fillRow incl edges) (fun _ => 0, fun _ => 0)
  (⟨shape, r.1⟩, ⟨shape, r.2⟩)

/-- Unbinned data as `unbinned_to_binned` uses it: observables, the rows of `data.value()`, the weights. -/
structure UData where
  obs : List String
  rows : List (List Rat)
  weights : Option (List Rat)

/-- `unbinned_to_binned` (core/binning.py:51-87) for a `space` that is a space; `from_tensor`
(binneddatav1.py:207-239) passes values and variances on.  `hist` raises `ValueError` if the number of columns is not
that of the axes.  The columns are used in the order of the *data*. -/
def unbinnedToBinned (incl : Bool) (d : UData) (space : BSpace) : Except Err Holder :=
  let edges := space.axes.map (·.edges)
  let w := d.weights.getD (d.rows.map (fun _ => 1))
  if d.obs.length ≠ space.axes.length then .error .valueError
  else
    let h := toHist incl edges (d.rows.zip w)
    Holder.make space h.1 (some h.2)

/-- `data.value(ob)` reshaped: the column of an observable. -/
def UData.column (d : UData) (ob : String) : Except Err (List Rat) := do
  let i ← pyIndex d.obs ob
  d.rows.mapM (fun r => pyGet r i)

/-- `tfp.stats.find_bins` (external): the last bin includes its upper edge, values outside give NaN (`none`). -/
def tfpFindBin (edges : List Rat) (x : Rat) : Option Nat := findBin true edges x

/-- `unbinned_to_binindex` (core/binning.py:90-115) with `flow=False`: the columns of the observables of the space. -/
def unbinnedToBinindex (d : UData) (space : BSpace) : Except Err (List (List (Option Nat))) := do
  let cols ← space.obs.mapM d.column
  let bins := (cols.zip (space.axes.map (·.edges))).map (fun p => p.1.map (tfpFindBin p.2))
  return (List.range d.rows.length).map (fun k => bins.map (fun c => (c[k]?).join))

/-! ### to_unbinned -/

/-- The centres of the bins (`hist` axes). -/
def centers : List Rat → List Rat
  | a :: b :: rest => (a + b) / 2 :: centers (b :: rest)
  | _ => []

/-- All indices of an array of the given shape in row-major order. -/
def allIdx : List Nat → List (List Nat)
  | [] => [[]]
  | n :: rest => (List.range n).flatMap (fun i => (allIdx rest).map (i :: ·))

/-- `BinnedData.to_unbinned` (binneddatav1.py:432-445): `meshgrid(indexing="ij")`, flattened row-major and stacked;
the weights are the flattened values.  `Data.from_tensor` with the unbinned space does not cut anything away since
the centres are inside the edges. -/
def Holder.toUnbinned (h : Holder) : UData :=
  let cs := h.space.axes.map (fun a => centers a.edges)
  let idxs := allIdx (cs.map List.length)
  ⟨h.space.obs, idxs.map (fun idx => (cs.zip idx).map (fun p => p.1.getD p.2 0)),
    some ((allIdx h.values.shape).map h.values.get)⟩

/-! ### Linear binning -/

/-- `znp.min` / `znp.max` of a tensor (an empty one does not occur). -/
def minL : List Rat → Rat
  | [] => 0
  | a :: l => l.foldl min a

/-- See `minL`. -/
def maxL : List Rat → Rat
  | [] => 0
  | a :: l => l.foldl max a

/-- `tf.math.bincount` with `minlength = maxlength = n`: indices from `n` on are dropped, negative ones raise. -/
def bincount (n : Nat) (idx : List Int) (w : List Rat) : Except Err (List Rat) :=
  if idx.any (· < 0) then .error .invalidArgument
  else .ok ((List.range n).map (fun (k : Nat) => (((idx.zip w).filter (fun p => p.1 = (k : Int))).map (·.2)).sum))

/-- `tf.roll(x, shift=1, axis=0)`.  The `tf.concat(x, tf.constant(0))` around `x` in the code passes a single tensor
and concatenates nothing. -/
def roll1 (l : List Rat) : List Rat := match l.getLast? with
  | none => []
  | some x => x :: l.dropLast

/-- `_bin_1d_weighted` (util/binning.py:56-104). `simple` is `method == "simple"`. -/
def bin1dWeighted (data grid : List Rat) (weights : Option (List Rat)) (simple : Bool) : Except Err (List Rat) :=
  let w0 := weights.getD (data.map (fun _ => 1))
  let w := w0.map (· / w0.sum)
  let n := grid.length
  let gmin := minL grid
  let gmax := maxL grid
  let dx := (gmax - gmin) / ((n : Rat) - 1)
  let transformed := data.map (fun x => (x - gmin) / dx)
  let integral : List Int := transformed.map (fun (t : Rat) => ⌊t⌋)
  let fractional := transformed.map (fun (t : Rat) => t - (⌊t⌋ : Rat))
  let fractional := if simple then fractional.map (fun f => (if f > 1 / 2 then 1 else 0) * f) else fractional
  let fracW := (fractional.zip w).map (fun p => p.1 * p.2)
  let negW := (w.zip fracW).map (fun p => p.1 - p.2)
  do
    let left ← bincount n integral fracW
    let right ← bincount n integral negW
    return ((roll1 left).zip right).map (fun p => p.1 + p.2)

end Zfit.Bin
