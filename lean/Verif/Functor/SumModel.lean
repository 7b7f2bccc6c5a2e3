import Verif.Pdf.Model

/-! `SumPDF`: how its fractions come about and what it computes (zfit/models/basefunctor.py, zfit/models/functor.py).

`S` is the type of the states of all parameters: fractions and yields are functions of the current state, as they are
parameters (possibly composed ones) in zfit.  Real numbers instead of floats. -/

namespace Zfit.Functor

open Zfit Zfit.Pdf

variable {S X P : Type}

/-- What the constructor looks at in a daughter: observables and yield (`none`: not extended). -/
structure Comp (S : Type) where
  obs : List String
  yield : Option (S → ℝ)

/-- `frozenset(a) == frozenset(b)`. -/
def sameSet (a b : List String) : Bool := a.all (b.contains ·) && b.all (a.contains ·)

/-- The result of `_preprocess_init_sum`: `param_fracs`, whether fractions were given (`fracs_cleaned` is not `None`)
and `sum_yields`. -/
structure Pre (S : Type) where
  fracs : List (S → ℝ)
  given : Bool
  sumYields : Option (S → ℝ)

/-- `remaining_frac_func` (basefunctor.py:190-191), a composed parameter of the given fractions. -/
noncomputable def remaining (fracs : List (S → ℝ)) : S → ℝ := fun σ => 1 - (fracs.map (· σ)).sum

/-- `sum_yields_func` (basefunctor.py:229-230). -/
noncomputable def sumOf (ys : List (S → ℝ)) : S → ℝ := fun σ => (ys.map (· σ)).sum

/-- The yields of the daughters, if all are extended (basefunctor.py:166-167, 227). -/
def allYields : List (Comp S) → Option (List (S → ℝ))
  | [] => some []
  | c :: cs =>
    match c.yield, allYields cs with
    | some y, some ys => some (y :: ys)
    | _, _ => none

/-- The fractions if some are given (basefunctor.py:183-222). -/
noncomputable def cleanFracs (n : Nat) (fracs : List (S → ℝ)) : Except Err (List (S → ℝ)) :=
  if fracs.length + 1 = n then .ok (fracs ++ [remaining fracs])
  else if fracs.length = n then .ok fracs
  else .error .modelIncompatible

/-- `_preprocess_init_sum` (basefunctor.py:155-251).  `fracs` is empty for `None`; warnings and the optional numeric check of the remaining fraction
(`run.numeric_checks`) are left out.  `obs` are the names of the observables given, if any. -/
noncomputable def preprocessInitSum (fracs : List (S → ℝ)) (obs : Option (List String)) (pdfs : List (Comp S)) :
    Except Err (Pre S) :=
  match pdfs with
  | [] => .error .valueError
  | [_] => .error .valueError
  | p :: _ =>
    if pdfs.any (fun q => !sameSet q.obs (obs.getD p.obs)) then .error .obsIncompatible
    else
      match fracs, allYields pdfs with
      | [], none => .error .modelIncompatible
      | [], some ys => .ok ⟨ys.map (fun y σ => y σ / sumOf ys σ), false, some (sumOf ys)⟩
      | _, _ => (cleanFracs pdfs.length fracs).map (fun fs => ⟨fs, true, none⟩)

/-- The argument `extended`: `None`, `False`, `True` or something that is made a parameter. -/
inductive ExtArg (S : Type)
  | none
  | off
  | on
  | yield (y : S → ℝ)

/-- A `SumPDF`: its daughters, its fractions (`fracs`, also in `params`), its yield and `_automatically_extended`. -/
structure SumPdf (S : Type) where
  pdfs : List (Comp S)
  fracs : List (S → ℝ)
  yield : Option (S → ℝ)
  auto : Bool

/-- The yield a `SumPDF` gets (functor.py:170-174 and basepdf.py:163-164).  `extended=True` with given fractions ends
in `convert_to_parameter(True)`, a constant of value one. -/
noncomputable def sumYield (pre : Pre S) : ExtArg S → Option (S → ℝ) × Bool
  | .none => if pre.given then (none, false) else (pre.sumYields, true)
  | .off => (none, false)
  | .on => if pre.given then (some (fun _ => 1), false) else (pre.sumYields, true)
  | .yield y => (some y, false)

/-- `SumPDF.__init__` (functor.py:65-178), up to the yield.  The checks of spaces and parameter names in the base
classes are left out. -/
noncomputable def mkSum (pdfs : List (Comp S)) (fracs : List (S → ℝ)) (obs : Option (List String)) (ext : ExtArg S) :
    Except Err (SumPdf S) := do
  let pre ← preprocessInitSum fracs obs pdfs
  return ⟨pdfs, pre.fracs, (sumYield pre ext).1, (sumYield pre ext).2⟩

/-- `copy` of a `SumPDF` without overrides (basepdf.py:936-1012, the part for functors).  `obs` are the observables of
its normalisation range. -/
noncomputable def SumPdf.copy (s : SumPdf S) (obs : List String) : Except Err (SumPdf S) :=
  mkSum s.pdfs (if s.yield.isSome then s.fracs else s.fracs.dropLast) (some obs) .none

/-- `create_extended` of a `SumPDF` (basepdf.py:677-727): an exception of `copy` becomes a `RuntimeError`. -/
noncomputable def SumPdf.createExtended (s : SumPdf S) (obs : List String) (y : S → ℝ) : Except Err (SumPdf S) :=
  if s.yield.isSome then .error .alreadyExtended
  else
    match s.copy obs with
    | .error _ => .error .runtimeError
    | .ok c => if c.yield.isSome then .error .alreadyExtended else .ok { c with yield := some y }

/-! ### Evaluation, at fixed values of the parameters -/

/-- A daughter: its implementation and its own normalisation range. -/
structure Daughter (X P : Type) where
  impl : Impl X P
  norm : List P

/-- `pdf.pdf(x)`, normalised over the daughter's own range. -/
noncomputable def Daughter.pdf (d : Daughter X P) (x : X) : Except Err ℝ := d.impl.evalPdf x (.range d.norm)

/-- `pdf.ext_pdf(x)`. -/
noncomputable def Daughter.extPdf (d : Daughter X P) (x : X) : Except Err ℝ := d.impl.evalExtPdf x (.range d.norm)

/-- `pdf.integrate(limits)`. -/
noncomputable def Daughter.integrate (d : Daughter X P) (limits : List P) : Except Err ℝ :=
  d.impl.integral limits (.range d.norm)

/-- `sum([call(pdf) * frac for pdf, frac in zip(pdfs, fracs)])`. -/
noncomputable def weighted (call : Daughter X P → Except Err ℝ) : List (Daughter X P) → List ℝ → Except Err ℝ
  | [], _ => .ok 0
  | _, [] => .ok 0
  | d :: ds, f :: fs => do
    let v ← call d
    let r ← weighted call ds fs
    return v * f + r

/-- `sum([call(pdf) for pdf in pdfs])`. -/
noncomputable def plainSum (call : Daughter X P → Except Err ℝ) : List (Daughter X P) → Except Err ℝ
  | [] => .ok 0
  | d :: ds => do
    let v ← call d
    let r ← plainSum call ds
    return v + r

/-- `len(set([pdf.norm for pdf in self.pdfs] + [norm])) == 1`, or `norm` has no limits (functor.py:202-204). -/
def normAgrees [DecidableEq P] (ds : List (Daughter X P)) : Pdf.Norm P → Bool
  | .range n => ds.all (fun d => decide (d.norm = n))
  | _ => true

/-- `SumPDF` as a subclass of `BasePDF` (functor.py:190-236): `_pdf`, `_ext_pdf`, `_unnormalized_pdf` and `_integrate`.
`_analytic_integrate` is left out: `_integrate` does not raise `FunctionNotImplemented`, so nothing else is tried for
`integrate`.  `numInt` is the numeric integrator. -/
noncomputable def sumImpl [DecidableEq P] (ds : List (Daughter X P)) (fracs : List ℝ) (yield : Option ℝ) (auto : Bool)
    (numInt : (X → Except Err ℝ) → List P → Except Err ℝ) : Impl X P where
  pdf := some {
    norms := fun _ => false
    all := true
    impl := fun x norm =>
      if normAgrees ds norm then weighted (·.pdf x) ds fracs else .error .functionNotImplemented }
  logPdf := none
  extPdf := some {
    norms := fun _ => false
    all := true
    impl := fun x norm =>
      if normAgrees ds norm && auto then plainSum (·.extPdf x) ds else .error .functionNotImplemented }
  yield := yield
  unnorm := some (fun x => weighted (·.pdf x) ds fracs)
  normalization := none
  integrate := some {
    norms := fun _ => false
    all := false
    multi := true
    impl := fun limits _ => weighted (·.integrate limits) ds fracs }
  analytic := none
  registered := fun _ => none
  numeric := none
  numInt := numInt

end Zfit.Functor
