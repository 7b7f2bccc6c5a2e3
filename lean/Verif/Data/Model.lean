import Verif.Common.Except
import Mathlib.Algebra.Order.Field.Rat
import Mathlib.Data.List.Dedup

/-!
# Model of /repo/zfit/core/data.py: `LightDataset`, `Data`, cutting, `concat`, `SamplerData`

Numbers are exact rationals; dtypes, names, labels, hashes and lazily built tensors (graph mode) are not modelled.
A space is given by its observables and its limits by observable (what coordinates and spaces do is modelled in
Verif/Coord and Verif/Space; a data space always has observables, and its axes are 0, 1, .. because of
`with_autofill_axes(overwrite=True)`, data.py:304-309).  Binned spaces are not modelled here.
-/

namespace Zfit.Dat

open Zfit

/-- A data space: the observables and, if it has limits, one list of intervals (aligned with the observables) for each
leaf; a `Space` has one leaf, a `MultiSpace` several (space.py:2680-2730). -/
structure DSpace where
  obs : List String
  lims : Option (List (List (Rat × Rat)))
  deriving DecidableEq, Repr

/-- A two dimensional tensor: number of columns (known also without rows) and rows. -/
structure Tensor where
  cols : Nat
  rows : List (List Rat)
  deriving DecidableEq, Repr

/-- `v` in the closed interval (space.py:223-235). -/
def inInterval (l : Rat × Rat) (v : Rat) : Bool := decide (l.1 ≤ v) && decide (v ≤ l.2)

/-- `Space.inside` / `MultiSpace.inside` of one event (space.py:2175-2185, 3115-3117): any leaf, all its columns. -/
def DSpace.insideRow (s : DSpace) (row : List Rat) : Bool :=
  match s.lims with
  | none => true
  | some ls => ls.any (fun b => (b.zip row).all (fun p => inInterval p.1 p.2))

/-- `limits.with_axes(ax).inside(arr)` (data.py:1184-1188) for one entry: the projection of every leaf on the axis. -/
def DSpace.insideAxis (s : DSpace) (ax : Nat) (v : Rat) : Bool :=
  match s.lims with
  | none => true
  | some ls => ls.any (fun b => match b[ax]? with
    | some l => inInterval l v
    | none => true)

/-- `Space.with_obs(obs)` (space.py:1880-1938, default superset and subset allowed): the known ones of the requested
observables in the requested order, with their limits. -/
def DSpace.withObs (s : DSpace) (req : List String) : Except Err DSpace :=
  if ¬ req.any (· ∈ s.obs) then .error .obsIncompatible
  else
    let kept := req.filter (· ∈ s.obs)
    .ok ⟨kept, s.lims.map (·.map (fun b => kept.map (fun o => b.getD (s.obs.idxOf o) (0, 0))))⟩

/-- `LightDataset` (data.py:1768-1804): a tensor with the list `_tensormap` of the columns shown, or (no tensor) the
list of columns.  The keys of `_tensormap` are 0, 1, ... -/
inductive LDS
  | tensor (t : Tensor) (map : List Nat)
  | columns (cols : List (List Rat))
  deriving DecidableEq, Repr

/-- `tensormap[i]`. -/
def mapGet {α : Type} (l : List α) (i : Nat) : Except Err α :=
  match l[i]? with
  | some a => .ok a
  | none => .error .keyError

/-- `LightDataset.ndims` (data.py:1799-1803, 1815-1819). -/
def LDS.ndims : LDS → Nat
  | .tensor _ m => m.length
  | .columns c => c.length

/-- `LightDataset.from_tensor` (data.py:1824-1832) with `__init__` (1786-1797). -/
def LDS.fromTensor (t : Tensor) (ndims : Nat) : Except Err LDS :=
  if t.cols ≠ ndims then .error .shapeIncompatible else .ok (.tensor t (List.range t.cols))

/-- `LightDataset.with_indices` (data.py:1834-1851). -/
def LDS.withIndices (d : LDS) (indices : List Nat) : Except Err LDS :=
  match d with
  | .tensor t m => do return .tensor t (← indices.mapM (mapGet m))
  | .columns c => do return .columns (← indices.mapM (mapGet c))

/-- `tensor[:, j]`. -/
def Tensor.col (t : Tensor) (j : Nat) : Except Err (List Rat) := t.rows.mapM (fun r => pyGet r j)

/-- `_get_tensor_and_tensormap(forcemap=True)` (data.py:1853-1872): from now on the dataset holds columns. -/
def LDS.force : LDS → Except Err LDS
  | .tensor t m => do return .columns (← m.mapM t.col)
  | .columns c => .ok (.columns c)

/-- `znp.stack(cols, axis=-1)`: columns to rows, all columns of the same length. -/
def stackCols (cols : List (List Rat)) : Except Err Tensor :=
  match cols with
  | [] => .error .valueError
  | c :: _ =>
    if cols.all (fun c' => decide (c'.length = c.length)) then
      .ok ⟨cols.length, (List.range c.length).map (fun i => cols.map (fun c' => c'.getD i 0))⟩
    else .error .invalidArgument

/-- `tf.gather(tensor, idx, axis=-1)`. -/
def Tensor.gather (t : Tensor) (idx : List Nat) : Except Err Tensor := do
  let rows ← t.rows.mapM (fun r => idx.mapM (pyGet r))
  return ⟨idx.length, rows⟩

/-- The part of `LightDataset.value` (data.py:1892-1906) after a possible conversion to columns. -/
def LDS.read (d : LDS) (idx : List Nat) : Except Err Tensor :=
  match d with
  | .columns c => do stackCols (← idx.mapM (mapGet c))
  | .tensor t m => do t.gather (← idx.mapM (mapGet m))

/-- `LightDataset.value(index)` for `None` or a tuple (data.py:1874-1906).  It can change how the dataset is stored
(1868-1870), therefore the dataset after the call is part of the result. -/
def LDS.value (d : LDS) (index : Option (List Nat)) : Except Err (Tensor × LDS) :=
  match index with
  | none => do return (← d.read (List.range d.ndims), d)
  | some idx => do
    let d' ← if idx.dedup.length < d.ndims then d.force else .ok d
    return (← d'.read idx, d')

/-! ## Cutting -/

/-- `arr[mask]`. -/
def maskSelect {α : Type} : List α → List Bool → List α
  | x :: xs, b :: bs => if b then x :: maskSelect xs bs else maskSelect xs bs
  | _, _ => []

/-- The check of the weights in `check_cut_data_weights` (data.py:1215-1223), eager mode. -/
def checkWeights (n : Nat) (w : Option (List Rat)) : Except Err Unit :=
  match w with
  | none => .ok ()
  | some w => if w.length ≠ n then .error .valueError else .ok ()

/-- `check_cut_data_weights` for an array (data.py:1227-1240). -/
def cutTensor (s : DSpace) (t : Tensor) (w : Option (List Rat)) : Except Err (Tensor × Option (List Rat)) := do
  checkWeights t.rows.length w
  match s.lims with
  | none => return (t, w)
  | some _ =>
    if t.cols ≠ s.obs.length then throw .shapeIncompatible
    let inside := t.rows.map s.insideRow
    return (⟨t.cols, maskSelect t.rows inside⟩, w.map (maskSelect · inside))

/-- `inside & limit.inside(arr)` of equally long masks (data.py:1188). -/
def andMask (acc : Option (List Bool)) (m : List Bool) : Except Err (Option (List Bool)) :=
  match acc with
  | none => .ok (some m)
  | some a => if a.length ≠ m.length then .error .invalidArgument else .ok (some (List.zipWith (· && ·) a m))

/-- The loop of `check_cut_datamap_weights` (data.py:1183-1189): the mask and the columns. -/
def cutLoop (s : DSpace) (cols : List (List Rat)) : List Nat → Option (List Bool) → List (List Rat) →
    Except Err (Option (List Bool) × List (List Rat))
  | [], acc, new => .ok (acc, new)
  | ax :: axs, acc, new => do
    let arr ← mapGet cols ax
    let acc' ← if s.lims.isSome then andMask acc (arr.map (s.insideAxis ax)) else .ok acc
    cutLoop s cols axs acc' (new ++ [arr])

/-- `check_cut_data_weights` for a mapping (data.py:1220-1226) and `check_cut_datamap_weights` (1180-1196). -/
def cutColumns (s : DSpace) (cols : List (List Rat)) (w : Option (List Rat)) :
    Except Err (List (List Rat) × Option (List Rat)) := do
  checkWeights (cols.headD []).length w
  let r ← cutLoop s cols (List.range s.obs.length) none []
  match r.1 with
  | none => return (r.2, w)
  | some inside =>
    if inside.all id then return (r.2, w)
    return (r.2.map (maskSelect · inside), w.map (maskSelect · inside))

/-! ## Data -/

/-- `Data` (data.py:119-239). -/
structure Data where
  space : DSpace
  ds : LDS
  weights : Option (List Rat)
  deriving DecidableEq, Repr

/-- `Data.__init__` with a `LightDataset` (data.py:131-239). -/
def Data.make (s : DSpace) (ds : LDS) (w : Option (List Rat)) (guarantee : Bool) : Except Err Data :=
  if guarantee then .ok ⟨s, ds, w⟩
  else
    match ds with
    | .columns c => do
      let r ← cutColumns s c w
      return ⟨s, .columns r.1, r.2⟩
    | .tensor t m => do
      let v ← (LDS.tensor t m).value none
      let r ← cutTensor s v.1 w
      let ds' ← LDS.fromTensor r.1 s.obs.length
      return ⟨s, ds', r.2⟩

/-- `Data.from_tensor` / `from_numpy` (data.py:775-854) for a two dimensional array. -/
def Data.fromTensor (s : DSpace) (t : Tensor) (w : Option (List Rat)) (guarantee : Bool) : Except Err Data := do
  let ds ← LDS.fromTensor t s.obs.length
  Data.make s ds w guarantee

/-- `Data.from_mapping` (data.py:526-602), also behind `from_pandas` (488-523). -/
def Data.fromMapping (s : DSpace) (mapping : List (String × List Rat)) (w : Option (List Rat)) (guarantee : Bool) :
    Except Err Data :=
  if s.obs.any (fun o => (dictGet mapping o).isNone) then .error .valueError
  else Data.make s (.columns (s.obs.map (fun o => (dictGet mapping o).getD []))) w guarantee

/-- `_get_permutation_indices` (data.py:999-1011) for a non-empty tuple of observables. -/
def Data.permIndices (d : Data) (obs : List String) : Except Err (List Nat) :=
  if obs.isEmpty then .ok (List.range d.space.obs.length)
  else if obs.any (· ∉ d.space.obs) then .error .valueError
  else obs.mapM (pyIndex d.space.obs)

/-- `Data.with_obs` with a space (data.py:889-897), through `copy` and `_copy` (336-358), which always cuts again
because `obs` and `data` are overwritten. -/
def Data.withSpace (d : Data) (s : DSpace) : Except Err Data := do
  let _ ← d.space.withObs s.obs
  let idx ← d.permIndices s.obs
  let ds ← d.ds.withIndices idx
  Data.make s ds d.weights false

/-- `Data.with_obs` with observable names (data.py:881-897).  Unknown names are dropped by `space.with_obs`. -/
def Data.withObs (d : Data) (obs : List String) : Except Err Data := do
  let s ← d.space.withObs obs
  let idx ← d.permIndices s.obs
  let ds ← d.ds.withIndices idx
  Data.make s ds d.weights false

/-- `Data.with_weights` (data.py:365-384); `num_entries` is the number of rows of the tensor or the length of the
first column (1810-1813). -/
def LDS.numEntries : LDS → Nat
  | .tensor t _ => t.rows.length
  | .columns c => (c.headD []).length

@[inherit_doc LDS.numEntries]
def Data.withWeights (d : Data) (w : Option (List Rat)) : Except Err Data :=
  match w with
  | none => .ok { d with weights := none }
  | some w => if w.length ≠ d.ds.numEntries then .error .valueError else .ok { d with weights := some w }

/-- `Data.value(obs)` (data.py:948-975) for a tuple of observables or `None`; the data is returned as well because the
dataset may have changed its storage.  `self.space.with_obs(None).axes` are all axes; the axis of an observable is its
position. -/
def Data.value (d : Data) (obs : Option (List String)) : Except Err (Tensor × Data) := do
  let idx ← match obs with
    | none => .ok (List.range d.space.obs.length)
    | some l => do
      let s ← d.space.withObs l
      s.obs.mapM (pyIndex d.space.obs)
  let r ← d.ds.value (some idx)
  return (r.1, { d with ds := r.2 })

/-- A sequence of `value` calls on the same data. -/
def Data.readAll : Data → List (Option (List String)) → Except Err (List Tensor)
  | _, [] => .ok []
  | d, l :: ls => do
    let r ← d.value l
    let rest ← r.2.readAll ls
    return r.1 :: rest

/-- A chain of `with_obs` calls with names, each on the result of the previous one. -/
def Data.withObsAll (d : Data) : List (List String) → Except Err Data
  | [] => .ok d
  | l :: ls => do
    let d' ← d.withObs l
    d'.withObsAll ls

/-- `samplesize` (data.py:263-266). -/
def Data.samplesize (d : Data) : Rat :=
  match d.weights with
  | some w => w.sum
  | none => (d.ds.numEntries : Rat)

/-! ## Concatenation -/

/-- `set(obs) == set(data.obs)`. -/
def sameSet (a b : List String) : Bool := a.all (· ∈ b) && b.all (· ∈ a)

/-- The weights of one dataset in `concat_data_index` (data.py:1755): ones if it has none. -/
def weightsOrOnes (d : Data) (n : Nat) : List Rat := d.weights.getD (List.replicate n 1)

/-- `concat(datasets, axis=0)` without `obs` (data.py:1605-1662, 1725-1762).  The check of equal limits (1742-1746) is
unreachable because `obs` has been set. -/
def concatIndex (datasets : List Data) : Except Err Data :=
  match datasets with
  | [] => .error .valueError
  | first :: _ =>
    let space := first.space
    if ¬ datasets.all (fun d => sameSet space.obs d.space.obs) then .error .valueError
    else do
      let vals ← datasets.mapM (fun d => d.value (some space.obs))
      let rows := (vals.map (fun v => v.1.rows)).flatten
      let weights := if datasets.any (fun d => d.weights.isSome)
        then some ((datasets.zip vals).map (fun p => weightsOrOnes p.1 p.2.1.rows.length)).flatten
        else none
      Data.fromTensor space ⟨space.obs.length, rows⟩ weights true

/-- `znp.prod(weights_new, axis=0)` of equally long lists. -/
def prodWeights : List (List Rat) → Option (List Rat)
  | [] => none
  | w :: ws => some (ws.foldl (fun acc v => List.zipWith (· * ·) acc v) w)

/-- The product of two data spaces with different observables (`new_spaces *= data.space`, data.py:1696): limits are
combined if both have them.  Spaces of which only one has limits are rejected (`combine_spaces`, modelled in
Verif/Space/Combine.lean). -/
def DSpace.mul (a b : DSpace) : Except Err DSpace :=
  match a.lims, b.lims with
  | none, none => .ok ⟨a.obs ++ b.obs, none⟩
  | some la, some lb => .ok ⟨a.obs ++ b.obs, some (la.flatMap (fun x => lb.map (fun y => x ++ y)))⟩
  | _, _ => .error .limitsNotSpecified

/-- `concat(datasets, axis="obs")` without `obs` (data.py:1665-1722), unless all datasets hold columns: then the code
calls `append` on a dictionary (1692). -/
def concatObs (datasets : List Data) : Except Err Data :=
  match datasets with
  | [] => .error .valueError
  | first :: rest =>
    if ¬ (datasets.flatMap (fun d => d.space.obs)).Nodup then .error .obsIncompatible
    else if datasets.all (fun d => match d.ds with | .columns _ => true | .tensor _ _ => false) then
      .error .attributeError
    else do
      let vals ← datasets.mapM (fun d => d.value none)
      let space ← rest.foldlM (fun s d => s.mul d.space) first.space
      let n := (vals.map (fun v => v.1.rows.length)).headD 0
      if ¬ vals.all (fun v => decide (v.1.rows.length = n)) then throw .invalidArgument
      let rows := (List.range n).map (fun i => vals.flatMap (fun v => v.1.rows.getD i []))
      Data.fromTensor space ⟨(vals.map (fun v => v.1.cols)).sum, rows⟩ (prodWeights (datasets.filterMap (·.weights))) true

/-! ## Sampler -/

/-- The mutable state of `SamplerData` (data.py:1246-1297): the two variables holding sample and weights
(`none`: created without weights), and the number of events. -/
structure Sampler where
  space : DSpace
  sample : Tensor
  weights : Option (List Rat)
  n : Nat
  deriving DecidableEq, Repr

/-- The checks of `update_data` before any assignment (data.py:1528-1542). -/
def Sampler.prepare (st : Sampler) (t : Tensor) (w : Option (List Rat)) (guarantee : Bool) :
    Except Err (Tensor × Option (List Rat)) :=
  if t.cols ≠ st.space.obs.length then .error .valueError
  else if guarantee then .ok (t, w)
  else cutTensor st.space t w

/-- `SamplerData.update_data` with an array (data.py:1504-1556): the state after the call, and the exception if one
was raised. -/
def Sampler.update (st : Sampler) (t : Tensor) (w : Option (List Rat)) (guarantee : Bool) : Sampler × Option Err :=
  match st.prepare t w guarantee with
  | .error e => (st, some e)
  | .ok (t', w') =>
    let st1 := { st with sample := t' }
    match w', st.weights with
    | some _, none => (st1, some .valueError)
    | some v, some _ => ({ st1 with weights := some v, n := t'.rows.length }, none)
    | none, some _ => (st1, some .valueError)
    | none, none => ({ st1 with n := t'.rows.length }, none)

/-- `SamplerData.resample` (data.py:1559-1595): the sampling function is arbitrary, its result (or exception) is given;
`set_shape((n, n_obs))` raises a `ValueError` if the shape differs. -/
def Sampler.resample (st : Sampler) (n : Nat) (draw : Except Err (Tensor × Option (List Rat))) (guarantee : Bool) :
    Sampler × Option Err :=
  match draw with
  | .error e => (st, some e)
  | .ok (t, w) =>
    if t.rows.length ≠ n ∨ t.cols ≠ st.space.obs.length then (st, some .valueError)
    else if w.any (fun w => decide (w.length ≠ n)) then (st, some .valueError)
    else st.update t w guarantee

end Zfit.Dat
