import Verif.Fun.Model

/-!
# Model of the analytic integral of a sum of functions

/repo/zfit/models/functions.py (`SumFunc._analytic_integrate`) and core/basemodel.py.
-/

namespace Zfit.Fun

open Zfit

variable {R I : Type} [Add R] [Zero R]

/-- A function as far as its analytic integral is concerned: its observables, and the registered integral over all of them (if
there is one) for limits in the order of its observables. -/
structure AFunc (R I : Type) where
  obs : List String
  analytic : Option (List I → Except Err R)

/-- `_check_input_limits` → `space.with_coords(self.space, allow_superset=True, allow_subset=True)` (basemodel.py:313-347): the
limits in the observables of the function, in their order; observables it does not have are dropped, and those that have no
limits are not integrated over. -/
def sortLimits (obs : List String) (lims : List (String × I)) : List (String × I) :=
  obs.filterMap (fun o => (dictGet lims o).map (fun l => (o, l)))

/-- `analytic_integrate` of a function of the user (basemodel.py:515-605), for limits with one piece and without `norm`. -/
def AFunc.integral (f : AFunc R I) (lims : List (String × I)) : Except Err R :=
  match f.analytic with
  | none => .error .analyticNotImplemented
  | some g =>
    let l := sortLimits f.obs lims
    if l.map (·.1) = f.obs then g (l.map (·.2)) else .error .analyticNotImplemented

/-- `SumFunc.analytic_integrate` (functions.py:73-77): the limits are first sorted to the observables of the sum. -/
def sumIntegral (obs : List String) (fs : List (AFunc R I)) (lims : List (String × I)) : Except Err R := do
  let l := sortLimits obs lims
  return (← fs.mapM (fun f => f.integral l)).sum

end Zfit.Fun
