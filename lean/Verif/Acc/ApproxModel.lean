import Verif.Acc.Model

/-!
# Model of the approximations of a `FitResult` and of what it says about itself

/repo/zfit/minimizers/fitresult.py: `Approximations` (62-172), `_covariance_approx` (248-265), the status, flag and message set by
`FitResult.__init__` (411-430) and by `errors` (1391-1397), `_input_convert_approx` (464-511), `from_nlopt` (999-1044).

A matrix is a value of an arbitrary type `M`, its inverse (`np.linalg.inv`) is given by a function that may fail.  The sizes of
matrices are not modelled.
-/

namespace Zfit.Acc

open Zfit

variable {G M V : Type}

/-! ## Hessian and inverse Hessian -/

/-- `Approximations`. -/
structure Approx (G M : Type) where
  params : List Key
  gradient : Option G
  hessian : Option M
  invHessian : Option M
  deriving DecidableEq

/-- `hessian(invert)` (147-153); the second component is the approximations afterwards. -/
def Approx.getHessian (inv : M → Except Err M) (a : Approx G M) (invert : Bool) : Except Err (Option M) × Approx G M :=
  match a.hessian with
  | some h => (.ok (some h), a)
  | none =>
    if invert then
      match a.invHessian with
      | some i =>
        match inv i with
        | .ok h => (.ok (some h), { a with hessian := some h })
        | .error e => (.error e, a)
      | none => (.ok none, a)
    else (.ok none, a)

/-- `inv_hessian(invert)` (165-171). -/
def Approx.getInvHessian (inv : M → Except Err M) (a : Approx G M) (invert : Bool) : Except Err (Option M) × Approx G M :=
  match a.invHessian with
  | some i => (.ok (some i), a)
  | none =>
    if invert then
      match a.hessian with
      | some h =>
        match inv h with
        | .ok i => (.ok (some i), { a with invHessian := some i })
        | .error e => (.error e, a)
      | none => (.ok none, a)
    else (.ok none, a)

/-- A call of one of the two. -/
inductive Ask
  | hessian (invert : Bool)
  | invHessian (invert : Bool)
  deriving DecidableEq, Repr

/-- The answer to a call, and the approximations afterwards. -/
def Approx.ask (inv : M → Except Err M) (a : Approx G M) : Ask → Except Err (Option M) × Approx G M
  | .hessian b => a.getHessian inv b
  | .invHessian b => a.getInvHessian inv b

/-- The approximations after some calls. -/
def Approx.asked (inv : M → Except Err M) (a : Approx G M) (calls : List Ask) : Approx G M := calls.foldl (fun a c => (a.ask inv c).2) a

/-! ## The approximate covariance -/

/-- `_covariance_approx` (256-265): the indices are those of the parameters in the result, `matrix` is the inverse Hessian. -/
def covarianceApprox (resultParams : List Key) (matrix : Option (ℕ → ℕ → V)) (params : List Key) :
    Except Err (List ((Key × Key) × V)) :=
  match matrix with
  | none => .ok []
  | some m =>
    (params.mapM fun p => (pyIndex resultParams p).map fun i => (p, i)).map fun pis =>
      (pis.flatMap fun a => pis.map fun b => (a, b)).foldl (fun d ab => dictSet d (ab.1.1, ab.2.1) (m ab.1.2 ab.2.2)) []

/-! ## What the approximations are made from -/

/-- A mapping given as `approx`: whether each key is there, and its value (which may be `None`); `other`: some other key. -/
structure ApproxMap (G M : Type) where
  params : Option (List Key)
  gradient : Option (Option G)
  hessian : Option (Option M)
  invHessian : Option (Option M)
  other : Bool
  deriving DecidableEq

/-- What the argument `approx` can be. -/
inductive ApproxArg (G M : Type)
  | none
  | mapping (m : ApproxMap G M)
  | approximations (a : Approx G M)
  deriving DecidableEq

/-- The mapping `info`: the keys that are read, and whether it has any key. -/
structure Info (G M : Type) where
  grad : Option (Option G)
  gradient : Option (Option G)
  hess : Option (Option M)
  hesse : Option (Option M)
  hessian : Option (Option M)
  invHess : Option (Option M)
  invHesse : Option (Option M)
  invHessian : Option (Option M)
  other : Bool
  deriving DecidableEq

/-- `bool(info)`. -/
def Info.truthy (i : Info G M) : Bool :=
  i.grad.isSome || i.gradient.isSome || i.hess.isSome || i.hesse.isSome || i.hessian.isSome || i.invHess.isSome || i.invHesse.isSome
    || i.invHessian.isSome || i.other

/-- An evaluator: its last gradient and Hessian. -/
structure Evaluator (G M : Type) where
  lastGradient : Option G
  lastHessian : Option M
  deriving DecidableEq

/-- The filling of the mapping (494-508). -/
def ApproxMap.fill (m : ApproxMap G M) (params : List Key) (info : Option (Info G M)) (ev : Option (Evaluator G M)) : ApproxMap G M :=
  let m := { m with params := some (m.params.getD params) }
  let m := match info with
    | some i =>
      if i.truthy then
        { m with
          gradient := some (m.gradient.getD (i.grad.getD (i.gradient.getD none)))
          hessian := some (m.hessian.getD (i.hess.getD (i.hesse.getD (i.hessian.getD none))))
          invHessian := some (m.invHessian.getD (i.invHess.getD (i.invHesse.getD (i.invHessian.getD none)))) }
      else m
    | none => m
  match ev with
  | some e =>
    { m with
      gradient := some (m.gradient.getD e.lastGradient)
      hessian := some (m.hessian.getD e.lastHessian) }
  | none => m

/-- `_input_convert_approx` (491-511): the approximations, and the argument as it is afterwards.  `size` is the number of entries of a
gradient, which has to be that of the parameters (84-89); another key is an unexpected argument. -/
def convertApprox (size : G → ℕ) (arg : ApproxArg G M) (params : List Key) (info : Option (Info G M)) (ev : Option (Evaluator G M)) :
    Except Err (Approx G M) × ApproxArg G M :=
  let go (m : ApproxMap G M) : Except Err (Approx G M) × ApproxArg G M :=
    let m' := m.fill params info ev
    (if m'.other then .error .typeError
     else match m'.gradient.getD none with
       | some g =>
         if size g = (m'.params.getD []).length then
           .ok ⟨m'.params.getD [], some g, m'.hessian.getD none, m'.invHessian.getD none⟩
         else .error .valueError
       | none => .ok ⟨m'.params.getD [], none, m'.hessian.getD none, m'.invHessian.getD none⟩,
     .mapping m')
  match arg with
  | .none => ((go ⟨none, none, none, none, false⟩).1, .none)
  | .mapping m => go m
  | .approximations a => (.ok a, arg)

/-- The approximations of `from_nlopt` (1020-1044): the dictionary `approx` that is filled is not handed on, `info` is. -/
def nloptApprox (size : G → ℕ) (params : List Key) (hessian invHessian : Option M) (ev : Option (Evaluator G M)) :
    Except Err (Approx G M) :=
  let _hessian := if invHessian.isNone && hessian.isNone then ev.bind (·.lastHessian) else hessian
  let info : Info G M := ⟨none, none, none, none, none, none, invHessian.map some, none, true⟩
  (convertApprox size .none params (some info) ev).1

/-! ## Status, flags and message -/

/-- What a result says about itself. -/
structure Says where
  valid : Option Bool
  converged : Option Bool
  atLimit : Bool
  status : ℤ
  message : String
  deriving DecidableEq, Repr

/-- The truth value of `None`, `True`, `False`. -/
def yes : Option Bool → Bool
  | some b => b
  | none => false

/-- `FitResult.__init__` (413-430, 440-450); `atLimit`: one of the parameters is at its limit. -/
def describe (valid converged : Option Bool) (status : Option ℤ) (message : Option String) (atLimit : Bool) : Says :=
  let status := status.getD (if yes valid then 0 else -999)
  let converged := if converged.isNone && yes valid then some true else converged
  let message := message.getD (if yes valid then "" else "Invalid, unknown reason (not specified)")
  if atLimit then
    let message := if message = "" then message else message ++ " AND "
    ⟨some false, converged, true, status, message ++ "parameter(s) at their limit."⟩
  else ⟨valid, converged, false, status, message⟩

/-- `result.valid` (1130-1131), as a truth value. -/
def Says.isValid (s : Says) : Bool := yes s.valid && !s.atLimit && yes s.converged

/-- `errors` (1391-1397); `newMinimum`: a new minimum was found. -/
def Says.errors (s : Says) (newMinimum : Bool) : Says :=
  if newMinimum then { s with valid := some false, message := "Invalid, a new minimum was found." } else s

end Zfit.Acc
