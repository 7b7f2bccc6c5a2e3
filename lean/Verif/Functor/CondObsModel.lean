import Verif.Functor.CondModel
import Verif.Functor.ProductModel

/-!
# Conditional PDFs on data with observables

/repo/zfit/models/conditional.py:30-204 with the calls of `pdf`, `integrate` and `sample` that lead there
(/repo/zfit/core/basemodel.py:221-244, 389-395, 1187-1201).  The loop over the events is that of Verif/Functor/CondModel.lean.
-/

namespace Zfit.Functor

open Zfit Zfit.Par Zfit.Dat

variable {R Ω : Type}

/-- `ConditionalPDFV1(pdf, cond)`: the observables of `pdf` and for each parameter in `cond` the observables of the space it
was given with.  (`cond` with plain strings instead of spaces is not modelled.) -/
structure Conditional where
  obs : List String
  cond : List (Nat × List String)

/-- The observables of `pdf.space * combine_spaces(*spaces)` (conditional.py:79-80, 97; `common_obs`, dimension.py:99-123). -/
def Conditional.allObs (c : Conditional) : List String := commonObs [c.obs, commonObs (c.cond.map (·.2))]

/-- `{p: x.obs.index(p_space.obs[0]) for p, p_space in self._cond.items()}` (conditional.py:103, 157, 184): only the first
observable of a space counts. -/
def Conditional.indices (c : Conditional) (xobs : List String) : Except Err (List (Nat × Nat)) :=
  c.cond.mapM (fun p => match p.2 with
    | [] => .error .indexError
    | o :: _ => (pyIndex xobs o).map (fun i => (p.1, i)))

/-- `_convert_sort_x` (basemodel.py:221-244), then the columns of the conditions and `x.value()`; also the space of the
sorted data. -/
def Conditional.prepare (c : Conditional) (d : Data) : Except Err (DSpace × List (Nat × Nat) × List (List Rat)) := do
  let d' ← d.withObs c.allObs
  let idx ← c.indices d'.space.obs
  let t ← d'.value none
  return (d'.space, idx, t.1.rows)

/-- `pdf(x)` (conditional.py:101-131): the wrapped PDF gets the first `n_obs` columns. -/
def Conditional.pdf (c : Conditional) (val : Store → List Rat → Except Err R) (d : Data) (s : Store) :
    Store × Except Err (List R) :=
  match c.prepare d with
  | .error e => (s, .error e)
  | .ok (_, idx, rows) => condPdf idx (fun s row => val s (row.take c.obs.length)) rows s

/-- `integrate(limits, norm, var=x)` (conditional.py:145-172); `int` is what `integrate(limits, norm)` of the wrapped PDF
gives.  Without `var` there is no data: `x.obs` is an attribute of `None` (conditional.py:157). -/
def Conditional.integrate (c : Conditional) (int : Store → Except Err R) (var : Option Data) (s : Store) :
    Store × Except Err (List R) :=
  match var with
  | none => (s, .error .attributeError)
  | some d =>
    match c.prepare d with
    | .error e => (s, .error e)
    | .ok (_, idx, rows) => condIntegrate idx (fun s _ => int s) rows s

/-- `sample(n, limits, x=x)` (conditional.py:174-204, basemodel.py:1187-1201) with limits in observables that the data does
not have.  `draw` is what `sample(n=1, limits=limits)` of the wrapped PDF gives for a random number, `ω i` is the one used
for the event `i`; of what is drawn the first column is kept (`tf_map(…)[..., 0]`, conditional.py:203). -/
def Conditional.sample (c : Conditional) (draw : Store → Except Err (Ω → List Rat)) (ω : Nat → Ω) (n : Nat) (limits : DSpace)
    (x : Data) (s : Store) : Store × Except Err Data :=
  match c.prepare x with
  | .error e => (s, .error e)
  | .ok (sp, idx, rows) =>
    match limits.mul sp with
    | .error e => (s, .error e)
    | .ok space =>
      if n ≠ rows.length then (s, .error .invalidArgument)
      else match mapEvents idx (fun s _ => draw s) rows s with
        | (s', .error e) => (s', .error e)
        | (s', .ok vs) =>
          (s', Data.fromTensor space ⟨1 + sp.obs.length,
            ((vs.zipIdx.map (fun v => (v.1 (ω v.2)).take 1)).zip rows).map (fun p => p.1 ++ p.2)⟩ none false)

end Zfit.Functor
