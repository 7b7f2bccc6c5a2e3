import Verif.Data.Model

/-!
# `concat` with the argument `obs` (/repo/zfit/core/data.py 1605-1762)

As in Verif/Data/Model.lean; here the observables (or a space) are given.
-/

namespace Zfit.Dat

open Zfit

/-- The argument `obs`: names of observables or a space. -/
inductive ObsArg
  | names (l : List String)
  | space (s : DSpace)
  deriving DecidableEq, Repr

/-- The space of data joined along the index (data.py 1730-1733): names are looked up in the space of the first dataset, a space is taken
as it is. -/
def ObsArg.indexSpace (obs : ObsArg) (first : Data) : Except Err DSpace :=
  match obs with
  | .names l => first.space.withObs l
  | .space s => .ok s

/-- `concat(datasets, obs=obs)` along the index (data.py 1725-1762); the data is made with `guarantee_limits=True` (1761), i.e. not cut. -/
def concatIndexObs (datasets : List Data) (obs : ObsArg) : Except Err Data :=
  match datasets with
  | [] => .error .valueError
  | first :: _ => do
    let space ← obs.indexSpace first
    if ¬ datasets.all (fun d => sameSet space.obs d.space.obs) then throw .valueError
    let vals ← datasets.mapM (fun d => d.value (some space.obs))
    let rows := (vals.map (fun v => v.1.rows)).flatten
    let weights := if datasets.any (fun d => d.weights.isSome)
      then some ((datasets.zip vals).map (fun p => weightsOrOnes p.1 p.2.1.rows.length)).flatten
      else none
    Data.fromTensor space ⟨space.obs.length, rows⟩ weights true

/-- `convert_to_space(obs)` (/repo/zfit/core/space.py 3160-3230) of names, a space without limits, or of a space. -/
def ObsArg.toSpace : ObsArg → DSpace
  | .names l => ⟨l, none⟩
  | .space s => s

/-- `concat(datasets, obs=obs, axis="obs")` (data.py 1665-1722): the observables have to be those of the datasets (1672-1677, after the
check for observables given twice); the joined data is then seen in the space (1720-1721). -/
def concatObsIn (datasets : List Data) (obs : ObsArg) : Except Err Data :=
  match datasets with
  | [] => .error .valueError
  | _ => do
    let allObs := datasets.flatMap (fun d => d.space.obs)
    if ¬ allObs.Nodup then throw .obsIncompatible
    if ¬ sameSet obs.toSpace.obs allObs then throw .obsIncompatible
    let d ← concatObs datasets
    d.withSpace obs.toSpace

end Zfit.Dat
