import Verif.Common.Py
import Mathlib.Data.Nat.Notation

/-!
# PDFs made from a PDF: the yield of a truncated PDF, projections, functions

/repo/zfit/models/truncated.py, core/basepdf.py (`create_projection_pdf`, `as_func`), core/operations.py.
-/

namespace Zfit.Own

open Zfit

/-! ## The yield of a truncated PDF -/

variable {P : Type}

/-- `params_deps[new] = params_deps.pop(old)` for a key that is there. -/
def moveKey (d : List (String × P)) (old new : String) : List (String × P) :=
  match dictGet d old with
  | some p => dictSet (d.filter fun e => e.1 ≠ old) new p
  | none => d

/-- The loop of truncated.py:181-184, with a bound on the number of its rounds; `none` if it is not over by then. -/
def renameLoop : ℕ → String → List (String × P) → Option (List (String × P))
  | 0, _, _ => none
  | fuel + 1, key, d =>
    if key ∈ d.map (·.1) then renameLoop fuel (key ++ "_x") (moveKey d key (key ++ "_x")) else some d

/-- The arguments of the yield of a truncated PDF (truncated.py:168-189): the parameters of the PDF by their names, and its yield. -/
def yieldArguments (fuel : ℕ) (params : List (String × P)) (yieldName : String) (yield : P) : Option (List (String × P)) :=
  (renameLoop fuel "wrapped_yield" params).map fun d =>
    let d := dictSet d "wrapped_yield" yield
    if yieldName ∈ d.map (·.1) then d.filter fun e => e.1 ≠ yieldName else d

/-! ## Projections -/

/-- What is given for observables: names, or a space with limits. -/
inductive Given (Lim : Type)
  | names (l : List String)
  | space (l : List (String × Lim))
  deriving DecidableEq

variable {Lim : Type}

def Given.obs : Given Lim → List String
  | .names l => l
  | .space l => l.map (·.1)

/-- `self.space.with_obs(names)` (coordinates.py:124-160): in the order of the names, those it does not have are left out; an exception if it
has none of them. -/
def takeObs (own : List (String × Lim)) (names : List String) : Except Err (List (String × Lim)) :=
  let l := names.filterMap fun n => (dictGet own n).map (n, ·)
  if l.isEmpty then .error .obsIncompatible else .ok l

/-- `if not obs.has_limits: obs = self.space.with_obs(obs.obs)`. -/
def withLimits (own : List (String × Lim)) : Given Lim → Except Err (List (String × Lim))
  | .names l => takeObs own l
  | .space l => .ok l

/-- What `create_projection_pdf` projects on and what it integrates over (basepdf.py:889-915). -/
def project (own : List (String × Lim)) (limits obs : Option (Given Lim)) : Except Err (List (String × Lim) × List (String × Lim)) :=
  match limits, obs with
  | none, none => .error .valueError
  | none, some obs =>
    let limitObs := (own.map (·.1)).filter fun o => o ∉ obs.obs
    if limitObs.isEmpty then .error .valueError
    else
      match takeObs own limitObs, withLimits own obs with
      | .ok over, .ok on => .ok (on, over)
      | .error e, _ => .error e
      | _, .error e => .error e
  | some limits, none =>
    match withLimits own limits with
    | .error e => .error e
    | .ok over =>
      match takeObs own ((own.map (·.1)).filter fun o => o ∉ over.map (·.1)) with
      | .error e => .error e
      | .ok on => .ok (on, over)
  | some limits, some obs =>
    match withLimits own limits, withLimits own obs with
    | .ok over, .ok on => if on.any fun e => e.1 ∈ over.map (·.1) then .error .valueError else .ok (on, over)
    | .error e, _ => .error e
    | _, .error e => .error e

/-- What is given as `extended`: nothing, `True`, `False` or a yield. -/
inductive ExtArg
  | none
  | true
  | false
  | yield (p : ℕ)
  deriving DecidableEq, Repr

/-- The yield of the projection (basepdf.py:921-932 and 163-164); `own` is that of the PDF. -/
def projYield (own : Option ℕ) (extended : ExtArg) : Option ℕ :=
  match extended with
  | .yield p => some p
  | .false => Option.none
  | .true => own
  | .none => if own.isSome then own else Option.none

/-! ## As a function -/

mutual
/-- A PDF: its own parameters and those it is built of. -/
inductive Tree
  | mk (own : List ℕ) (daughters : Trees)
inductive Trees
  | nil
  | cons (t : Tree) (ts : Trees)
end

mutual
/-- All parameters a PDF depends on (`FunctorMixin._get_params`, basefunctor.py:80-98). -/
def Tree.params : Tree → List ℕ
  | .mk own ds => own ++ ds.params
def Trees.params : Trees → List ℕ
  | .nil => []
  | .cons t ts => t.params ++ ts.params
end

/-- A function made of a callable with its parameters (functions.py:20-43). -/
structure SimpleFunc (X V : Type) where
  params : List ℕ
  func : X → Except Err V

/-- `convert_pdf_to_func` (operations.py:226-232): the value is that of the PDF, the parameters are `pdf.params`.  `_func` (functions.py:38-42)
calls the callable a second time with an argument too many if it raised a `TypeError`, which is again a `TypeError`. -/
def asFunc {X V : Type} (t : Tree) (pdf : X → Except Err V) : SimpleFunc X V where
  params := match t with | .mk own _ => own
  func x := match pdf x with
    | .error .typeError => .error .typeError
    | r => r

end Zfit.Own
