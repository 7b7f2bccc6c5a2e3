import Verif.Loss.Model
import Verif.Data.Model
import Mathlib.Data.Rat.Cast.Defs

/-!
# A likelihood on the data object itself

/repo/zfit/core/loss.py: `_unbinned_nll_tf` (100-126) with the data as modelled in `Verif.Data.Model`, and the step in which a PDF brings
the data into the order of its observables (`_convert_sort_x`, /repo/zfit/core/basemodel.py:221-244).  In `Verif.Loss.Model` a dataset is a
list of events and a fit range a condition on events; here both are the objects that the user creates.
-/

namespace Zfit.Loss

open Zfit Zfit.Dat

variable {Θ : Type}

/-- A PDF as the likelihood uses it: its observables and the density at the values of one event, listed in the order of these, for a norm
(`none` is the default) and the values of the parameters. -/
structure Density (Θ : Type) where
  obs : List String
  pdf : Option DSpace → Θ → List ℝ → ℝ
  yield : Option (Θ → ℝ) := none

/-- `data.with_obs(fit_range)` if there is a fit range (loss.py:112-113). -/
def cutTo (d : Data) (r : Option DSpace) : Except Err Data :=
  match r with
  | none => .ok d
  | some s => d.withSpace s

/-- `model.pdf(data, norm=...)` (basepdf.py:439-475 with basemodel.py:221-244): the columns in the order of the PDF's observables, then the
density of every row. -/
noncomputable def Density.probs (m : Density Θ) (d : Data) (norm : Option DSpace) (θ : Θ) : Except Err (List ℝ) := do
  let x ← d.withObs m.obs
  let v ← x.value none
  return v.1.rows.map (fun row => m.pdf norm θ (row.map (fun (q : Rat) => (q : ℝ))))

/-- The weights in `_nll_calc_unbinned_tf` (loss.py:133-134); arrays of different length cannot be multiplied. -/
def weightsFor (d : Data) (n : Nat) : Except Err (Option (List ℝ)) :=
  match d.weights with
  | none => .ok none
  | some w => if w.length = n then .ok (some (w.map (fun (q : Rat) => (q : ℝ)))) else .error .invalidArgument

/-- `_unbinned_nll_tf` for one model and dataset (loss.py:111-126), without an offset. -/
noncomputable def nllOnData (m : Density Θ) (d : Data) (r : Option DSpace) (θ : Θ) : Except Err ℝ := do
  let d' ← cutTo d r
  let p ← m.probs d' r θ
  let w ← weightsFor d' p.length
  return nllCalc (p.map (fun y => Real.log (y + eps))) w none

/-- The term of an extended likelihood for one model and dataset (loss.py:1256-1270): the number of events is that of the whole data. -/
noncomputable def extOnData (m : Density Θ) (d : Data) (θ : Θ) : Except Err ℝ :=
  match m.yield with
  | none => .error .notExtended
  | some y => .ok (logPoissonLoss ((d.samplesize : Rat) : ℝ) (Real.log (y θ)) true)

/-- What is given for one term of the likelihood. -/
structure Input (Θ : Type) where
  model : Density Θ
  data : Data
  range : Option DSpace

/-- `UnbinnedNLL.value(full=True)` (loss.py:103-110, 1088-1111): the sum of the terms and of the constraints. -/
noncomputable def nllOnAll (l : List (Input Θ)) (cs : List (Constr Θ)) (θ : Θ) : Except Err ℝ := do
  let v ← l.mapM (fun i => nllOnData i.model i.data i.range θ)
  return v.sum + (cs.map (·.value θ)).sum

/-- `ExtendedUnbinnedNLL.value(full=True)` (loss.py:1244-1271). -/
noncomputable def extNllOnAll (l : List (Input Θ)) (cs : List (Constr Θ)) (θ : Θ) : Except Err ℝ := do
  let v ← nllOnAll l cs θ
  let n ← l.mapM (fun i => extOnData i.model i.data θ)
  return v + n.sum

end Zfit.Loss
