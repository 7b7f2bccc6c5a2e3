import Verif.Binned.Model
import Verif.Data.Model
import Verif.Common.Except

/-!
# Model of samplers and of the conversions of binned data

/repo/zfit/_data/binneddatav1.py (`BinnedSamplerData`, `BinnedData.from_hist`, `to_hist`, `with_variances`),
/repo/zfit/_variables/axis.py, /repo/zfit/core/data.py (`SamplerData`), `convert_param_values` of
/repo/zfit/core/baseobject.py and the part of /repo/zfit/core/loss.py that notices changed data.

Numbers are rationals.  Eager mode only.  The sampling functions of the user are arbitrary and so is the hash function.
-/

namespace Zfit.Smp

open Zfit Zfit.Bin

/-! ## Values of parameters for sampling -/

/-- A key of a mapping of values: a name, or a parameter with that name. -/
inductive PKey
  | str (name : String)
  | param (name : String)
  deriving DecidableEq, Repr

/-- `param.name if isinstance(param, ZfitParameter) else param` (baseobject.py:87). -/
def PKey.name : PKey → String
  | .str s => s
  | .param s => s

/-- What a user can give as values of parameters. -/
inductive PVals
  | none
  | mapping (l : List (PKey × Rat))
  | result (l : List (PKey × Rat))
  | other
  deriving DecidableEq, Repr

/-- The dict comprehension of `convert_param_values` (baseobject.py:87): of equal keys the last value stays. -/
def byName (l : List (PKey × Rat)) : List (String × Rat) := l.foldl (fun d kv => dictSet d kv.1.name kv.2) []

/-- `convert_param_values` (baseobject.py:67-87). -/
def convertParamValues : PVals → Except Err (List (String × Rat))
  | .none => .ok []
  | .mapping l => .ok (byName l)
  | .result l => .ok (byName l)
  | .other => .error .typeError

/-- `d.update(e)`. -/
def dictUpdate (d e : List (String × Rat)) : List (String × Rat) := e.foldl (fun d kv => dictSet d kv.1 kv.2) d

/-- `param_values`, the old name of `params`, must not be given together with it (data.py:1579-1583, binneddatav1.py:658-662). -/
def pickParams (params paramValues : PVals) : Except Err PVals :=
  if paramValues = .none then .ok params
  else if params = .none then .ok paramValues
  else .error .valueError

/-- The values of the parameters for one sample (data.py:1584-1587, binneddatav1.py:663-666): the defaults, overwritten by those given. -/
def mergeParams (defaults : List (String × Rat)) (params : PVals) : Except Err (List (String × Rat)) :=
  if params = .none then .ok defaults else (convertParamValues params).map (dictUpdate defaults)

/-- The beginning of `resample`, the same in both classes (data.py:1576-1589, binneddatav1.py:655-667): with which number of events and
with which values of the parameters the sampling function is called. -/
def resampleArgs (defN : Nat) (defaults : List (String × Rat)) (params paramValues : PVals) (n : Option Nat) :
    Except Err (Nat × List (String × Rat)) := do
  let params ← pickParams params paramValues
  let ps ← mergeParams defaults params
  return (n.getD defN, ps)

/-! ## Conversion of histograms -/

/-- An axis of a histogram of the library `hist`; the edges of a transformed regular axis and of the other axes (integers, categories) do
not matter. -/
inductive HAxis
  | regular (name : String) (bins : Nat) (start stop : Rat) (transformed : Bool)
  | variable (name : String) (edges : List Rat)
  | other (name : String)
  deriving DecidableEq, Repr

/-- `axis.name`. -/
def HAxis.name : HAxis → String
  | .regular n _ _ _ _ => n
  | .variable n _ => n
  | .other n => n

/-- `axis.edges` (external: boost histogram): equidistant for a regular axis. -/
def HAxis.edges : HAxis → List Rat
  | .regular _ bins start stop _ => (List.range (bins + 1)).map (fun i : Nat => start + i * ((stop - start) / bins))
  | .variable _ edges => edges
  | .other _ => []

/-- The check of the name in `HashableAxisMixin.__init__` (axis.py:67-70). -/
def checkName (a : HAxis) : Except Err HAxis := if a.name = "" then .error .valueError else .ok a

/-- `new_from_axis` (axis.py:98-113): `edges[0]` and `edges[-1]` are the limits of the new regular axis. -/
def newFromAxis (a : HAxis) : Except Err HAxis :=
  match a with
  | .regular name bins _ _ transformed =>
    if transformed then .error .valueError
    else checkName (.regular name bins (a.edges.headD 0) (a.edges.getLastD 0) false)
  | .variable name edges => checkName (.variable name edges)
  | .other _ => .error .valueError

/-- The variances of a histogram: none, not a number in every bin, or an array. -/
inductive HVar
  | absent
  | nan
  | given (a : NDArr)

/-- A histogram, or binned data with its axes (`hist.Hist`, `BinnedData`): both are named axes with contents and variances. -/
structure HData where
  axes : List HAxis
  values : NDArr
  variances : HVar

/-- The check of the shapes by `BinnedHolder.__init__` (binneddatav1.py:60-88), see `Bin.Holder.make`. -/
def checkShapes (axes : List HAxis) (values : NDArr) (variances : HVar) : Except Err HData := do
  let space : BSpace := ⟨axes.map (fun a => ⟨a.name, a.edges⟩)⟩
  let _ ← Holder.make space values (match variances with | .given v => some v | _ => none)
  return ⟨axes, values, variances⟩

/-- `BinnedData.from_hist` (binneddatav1.py:90-106, 273-284, `histaxes_to_binning` of axis.py:116-120) of a histogram without
flow bins in sight (`flow = False`). -/
def fromHist (h : HData) : Except Err HData := do
  let axes ← h.axes.mapM newFromAxis
  checkShapes axes h.values h.variances

/-- `BinnedData.to_hist` and `_to_boost_histogram_` (binneddatav1.py:329-347): numpy turns `None`, assigned to an array of numbers,
into "not a number". -/
def toHist (d : HData) : HData :=
  ⟨d.axes, d.values, match d.variances with | .absent => .nan | v => v⟩

/-- The class of a binned data object. -/
inductive Cls
  | data
  | sampler
  deriving DecidableEq, Repr

/-- `BinnedData.with_variances` (binneddatav1.py:118-137, 177-183): `type(self)(holder=..., name=..., label=...)`; the
initialiser of `BinnedSamplerData` knows no `holder` (464-475).  The shapes are checked by the new holder. -/
def withVariances (cls : Cls) (h : Holder) (variances : Option NDArr) : Except Err Holder := do
  let h' ← Holder.make h.space h.values variances
  match cls with
  | .data => return h'
  | .sampler => throw .typeError

/-! ## Binned samplers -/

/-- The environment: whether `run.set_data_hashing` has it enabled, and the hash (xxh128) of contents and variances. -/
structure Env where
  hashing : Bool
  hash : NDArr → Option NDArr → Nat

/-- The state of a `BinnedSamplerData` (binneddatav1.py:461-510): the variables with contents and variances (`none`: created
without variances), the default values of the parameters, the default number of events and the hash. -/
structure BSampler where
  space : BSpace
  values : NDArr
  variances : Option NDArr
  params : List (String × Rat)
  n : Nat
  hash : Nat

/-- The new data given to `update_data`: an array, or binned data (a `hist` histogram is converted by `fromHist`). -/
inductive NewData
  | array (a : NDArr)
  | binned (h : Holder)

/-- `variable.assign(a)` for a variable of shape `(None,) * n_obs` (binneddatav1.py:606-626): only the rank is checked. -/
def assignOk (space : BSpace) (a : NDArr) : Bool := decide (a.shape.length = space.axes.length)

/-- `_update_hash` (binneddatav1.py:294-306, 533-536) in eager mode: without hashing `None % 4096` raises. -/
def updateHash (E : Env) (st : BSampler) : BSampler × Option Err :=
  if E.hashing then ({ st with hash := E.hash st.values st.variances % 4096 % 4096 }, none) else (st, some .typeError)

/-- The part of `update_data` that sets the variances and the hash (binneddatav1.py:692-702). -/
def updateVariances (E : Env) (st : BSampler) (variances : Option NDArr) : BSampler × Option Err :=
  match variances, st.variances with
  | some _, none => (st, some .valueError)
  | some v, some _ => if assignOk st.space v then updateHash E { st with variances := some v } else (st, some .valueError)
  | none, some _ => (st, some .valueError)
  | none, none => updateHash E st

/-- `BinnedSamplerData.update_data` (binneddatav1.py:671-702): the state after the call and the exception, if one was raised. -/
def BSampler.updateData (E : Env) (st : BSampler) (sample : NewData) (variances : Option NDArr) : BSampler × Option Err :=
  match sample, variances with
  | .binned _, some _ => (st, some .valueError)
  | .binned h, none =>
    if assignOk st.space h.values then updateVariances E { st with values := h.values } h.variances else (st, some .valueError)
  | .array a, v =>
    if assignOk st.space a then updateVariances E { st with values := a } v else (st, some .valueError)

/-- A sampling function, called with the number of events and the values of the parameters. -/
abbrev BDraw := Nat → List (String × Rat) → Except Err (NDArr × Option NDArr)

/-- `BinnedSamplerData.resample` (binneddatav1.py:634-669): the state, the exception, and the arguments the sampling function was called
with, if it was. -/
def BSampler.resample (E : Env) (st : BSampler) (params paramValues : PVals) (n : Option Nat) (draw : BDraw) :
    BSampler × Option Err × Option (Nat × List (String × Rat)) :=
  match resampleArgs st.n st.params params paramValues n with
  | .error e => (st, some e, none)
  | .ok (n, ps) =>
    match draw n ps with
    | .error e => (st, some e, some (n, ps))
    | .ok (a, v) =>
      let r := st.updateData E (.array a) v
      (r.1, r.2, some (n, ps))

/-- Creating the variables of shape `(None,) * n_obs` (binneddatav1.py:601-619). -/
def checkRanks (space : BSpace) (r : NDArr × Option NDArr) : Except Err Unit :=
  if assignOk space r.1 && r.2.all (assignOk space) then .ok () else .error .valueError

/-- `BinnedSamplerData.__init__` (binneddatav1.py:464-510): the first sample is written once more. -/
def BSampler.init (E : Env) (h : Holder) (ps : List (String × Rat)) (n : Nat) : Except Err BSampler :=
  match BSampler.updateData E ⟨h.space, h.values, h.variances, ps, n, 0⟩ (.array h.values) h.variances with
  | (st, none) => .ok st
  | (_, some e) => .error e

/-- `BinnedSamplerData.from_sampler` (binneddatav1.py:560-632) with a sampling function with or without variances: the variables are
created with the first sample and the holder checks the shapes. -/
def BSampler.fromSampler (E : Env) (space : BSpace) (n : Nat) (params : PVals) (draw : BDraw) : Except Err BSampler := do
  let ps ← convertParamValues params
  let r ← draw n ps
  let _ ← checkRanks space r
  let h ← Holder.make space r.1 r.2
  BSampler.init E h ps n

/-- What a user does with a binned sampler. -/
inductive BOp
  | update (sample : NewData) (variances : Option NDArr)
  | resample (params paramValues : PVals) (n : Option Nat) (draw : BDraw)

/-- One step: the new state, the exception, the call of the sampling function. -/
def BSampler.step (E : Env) (st : BSampler) : BOp → BSampler × Option Err × Option (Nat × List (String × Rat))
  | .update s v => let r := st.updateData E s v; (r.1, r.2, none)
  | .resample p pv n draw => st.resample E p pv n draw

/-- The state after a history. -/
def BSampler.run (E : Env) (st : BSampler) (ops : List BOp) : BSampler := ops.foldl (fun s o => (s.step E o).1) st

/-! ## Losses notice changed data -/

/-- Whether a loss counts as checked, and the hashes of its data then (loss.py:243-265). -/
structure Checked where
  flag : Bool
  hashes : List (Option Nat)
  deriving DecidableEq, Repr

/-- The property `is_precompiled` (loss.py:253-259). -/
def Checked.get (c : Checked) (now : List (Option Nat)) : Checked :=
  if (now.zip c.hashes).any (fun p => p.1 ≠ p.2) then { c with flag := false } else c

/-- `check_precompile` (loss.py:385-413): whether the data is checked in this evaluation, and the state afterwards. -/
def Checked.evaluate (c : Checked) (now : List (Option Nat)) : Bool × Checked :=
  let c' := c.get now
  if c'.flag then (false, c') else (true, ⟨true, now⟩)

/-- The state of a new loss (loss.py:243-244) after evaluations with these hashes of its data. -/
def Checked.after (evals : List (List (Option Nat))) : Checked := evals.foldl (fun c now => (c.evaluate now).2) ⟨false, []⟩

/-! ## Unbinned samplers -/

/-- What a sampling function returns: one or two dimensional, as a tensor or as an array of NumPy. -/
inductive Drawn
  | rank1 (l : List Rat)
  | rank2 (t : Dat.Tensor)
  deriving DecidableEq, Repr

/-- The result of a sampling function: whether it consists of tensors (else NumPy arrays), the sample and the weights. -/
structure UOut where
  tensor : Bool
  sample : Drawn
  weights : Option (List Rat)
  deriving DecidableEq, Repr

/-- `if len(data.shape) == 1 and limits.n_obs == 1: data = data[:, None]`, otherwise two dimensions are required (data.py:1228-1233). -/
def asTable (nObs : Nat) : Drawn → Except Err Dat.Tensor
  | .rank2 t => .ok t
  | .rank1 l => if nObs = 1 then .ok ⟨1, l.map ([·])⟩ else .error .valueError

/-- The state of a `SamplerData` (data.py:1243-1297): sample and weights, the default values and number of events, whether the sampling
function is trusted to stay within the limits, the hash (`none` without hashing). -/
structure USampler where
  core : Dat.Sampler
  params : List (String × Rat)
  n : Nat
  guarantee : Bool
  hash : Option Nat
  deriving DecidableEq, Repr

/-- The hash of sample and weights, and whether hashing is enabled. -/
structure UEnv where
  hashing : Bool
  hash : Dat.Tensor → Option (List Rat) → Nat

/-- `_update_hash` (data.py:1317-1323, 856-867). -/
def uHash (E : UEnv) (s : Dat.Sampler) : Option Nat := if E.hashing then some (E.hash s.sample s.weights % 4096) else none

/-- New data for an unbinned sampler: an array, or a data set. -/
inductive UNew
  | array (d : Drawn)
  | data (d : Dat.Data)

/-- The sample and weights of a data set given to `update_data` (data.py:1521-1527): the data set restricted to the space of the sampler. -/
def uFromData (s : Dat.DSpace) (d : Dat.Data) : Except Err (Dat.Tensor × Option (List Rat)) := do
  let d' ← d.withSpace s
  let v ← d'.value none
  return (v.1, d'.weights)

/-- `SamplerData.update_data` (data.py:1504-1556): a one dimensional sample becomes a column whatever the number of observables, the
number of columns is checked by `Dat.Sampler.update`. -/
def USampler.updateData (E : UEnv) (st : USampler) (sample : UNew) (weights : Option (List Rat)) (guarantee : Bool) :
    USampler × Option Err :=
  let prepared : Except Err (Dat.Tensor × Option (List Rat)) := match sample, weights with
    | .data _, some _ => .error .valueError
    | .data d, none => uFromData st.core.space d
    | .array (.rank1 l), w => .ok (⟨1, l.map ([·])⟩, w)
    | .array (.rank2 t), w => .ok (t, w)
  match prepared with
  | .error e => (st, some e)
  | .ok (t, w) =>
    match st.core.update t w guarantee with
    | (c, none) => ({ st with core := c, hash := uHash E c }, none)
    | (c, some e) => ({ st with core := c }, some e)

/-- A sampling function of unbinned data. -/
abbrev UDraw := Nat → List (String × Rat) → Except Err UOut

/-- `set_shape((n, n_obs))` and `set_shape((n,))` (data.py:1590-1592): NumPy arrays have no such method, another shape raises. -/
def setShapes (n nObs : Nat) (o : UOut) : Except Err Unit :=
  if ¬ o.tensor then .error .attributeError
  else match o.sample with
    | .rank1 _ => .error .valueError
    | .rank2 t =>
      if t.rows.length ≠ n ∨ t.cols ≠ nObs then .error .valueError
      else if o.weights.any (fun w => decide (w.length ≠ n)) then .error .valueError
      else .ok ()

/-- `SamplerData.resample` (data.py:1558-1595). -/
def USampler.resample (E : UEnv) (st : USampler) (params paramValues : PVals) (n : Option Nat) (draw : UDraw) :
    USampler × Option Err × Option (Nat × List (String × Rat)) :=
  match resampleArgs st.n st.params params paramValues n with
  | .error e => (st, some e, none)
  | .ok (n, ps) =>
    match draw n ps with
    | .error e => (st, some e, some (n, ps))
    | .ok o =>
      match setShapes n st.core.space.obs.length o with
      | .error e => (st, some e, some (n, ps))
      | .ok () =>
        let r := st.updateData E (.array o.sample) o.weights st.guarantee
        (r.1, r.2, some (n, ps))

/-- The check of the length of the weights (data.py:1215-1223), done whether or not the limits are guaranteed. -/
def checkLength (o : UOut) : Except Err Unit :=
  Dat.checkWeights (match o.sample with | .rank1 l => l.length | .rank2 t => t.rows.length) o.weights

/-- The cut of the first sample (data.py:1462-1464, 1235-1240), skipped if the limits are guaranteed. -/
def cutFirst (guarantee : Bool) (space : Dat.DSpace) (t : Dat.Tensor) (w : Option (List Rat)) : Except Err (Dat.Tensor × Option (List Rat)) :=
  if guarantee then .ok (t, w) else Dat.cutTensor space t w

/-- `SamplerData.__init__` (data.py:1246-1297) with a variable of shape `(None, n_obs)`: the sample is written once more, and cut.
`guarantee_limits=True` (1499) is what `resample` will use. -/
def USampler.init (E : UEnv) (space : Dat.DSpace) (ps : List (String × Rat)) (n : Nat) (t : Dat.Tensor) (w : Option (List Rat)) :
    Except Err USampler :=
  if t.cols ≠ space.obs.length then .error .valueError
  else match USampler.updateData E ⟨⟨space, t, w, t.rows.length⟩, ps, n, true, none⟩ (.array (.rank2 t)) w false with
    | (st, none) => .ok st
    | (_, some e) => .error e

/-- `SamplerData.from_sampler` (data.py:1384-1502).  `guarantee_limits` decides whether the first sample is cut. -/
def USampler.fromSampler (E : UEnv) (space : Dat.DSpace) (n : Nat) (params : PVals) (guarantee : Bool) (draw : UDraw) : Except Err USampler := do
  let ps ← convertParamValues params
  let o ← draw n ps
  let _ ← checkLength o
  let t ← asTable space.obs.length o.sample
  let r ← cutFirst guarantee space t o.weights
  USampler.init E space ps n r.1 r.2

/-- What a user does with a sampler. -/
inductive UOp
  | update (sample : UNew) (weights : Option (List Rat)) (guarantee : Bool)
  | resample (params paramValues : PVals) (n : Option Nat) (draw : UDraw)

/-- One step. -/
def USampler.step (E : UEnv) (st : USampler) : UOp → USampler × Option Err × Option (Nat × List (String × Rat))
  | .update s w g => let r := st.updateData E s w g; (r.1, r.2, none)
  | .resample p pv n draw => st.resample E p pv n draw

/-- The state after a history. -/
def USampler.run (E : UEnv) (st : USampler) (ops : List UOp) : USampler := ops.foldl (fun s o => (s.step E o).1) st

end Zfit.Smp
