import Verif.Data.Model
import Mathlib.MeasureTheory.Integral.Marginal

/-! `ProductPDF` (zfit/models/functor.py:321-473, zfit/models/basefunctor.py:33-64, 141-153). -/

namespace Zfit.Functor

open Zfit Zfit.Dat

variable {R V : Type}

/-- A factor: its observables and its unnormalised density of a row with one entry for each of them. -/
structure Factor (R V : Type) where
  obs : List String
  val : List R → V

/-- `_extract_common_obs` (basefunctor.py:143-150). -/
def commonObs (obss : List (List String)) : List String :=
  obss.foldl (fun acc os => os.foldl (fun acc o => if o ∈ acc then acc else acc ++ [o]) acc) []

/-- The observables of a product created without `obs` (basefunctor.py:50-60): those of the combined space.  Only the
observables are modelled here, for the limits see the combination of spaces in Verif/Space. -/
def productObs (fs : List (Factor R V)) : List String := commonObs (fs.map (·.obs))

/-- `functools.reduce(operator.mul, probs)` on arrays of values. -/
def reduceMul [Mul V] : List (List V) → Except Err (List V)
  | [] => .error .typeError
  | v :: vs => .ok (vs.foldl (List.zipWith (· * ·)) v)

/-- `pdf.pdf(x, norm=False)` of a factor: the data is brought into the order of its observables (`_convert_sort_x`,
basemodel.py:221-244) and each row evaluated. -/
def Factor.eval (f : Factor Rat V) (d : Data) : Except Err (List V) := do
  let d' ← d.withObs f.obs
  let t ← d'.value none
  return t.1.rows.map f.val

/-- `pdf(x, norm=False)` of a product: `_convert_sort_x` and `_unnormalized_pdf` (functor.py:398-401). -/
def productEval [Mul V] (fs : List (Factor Rat V)) (d : Data) : Except Err (List V) := do
  let d' ← d.withObs (productObs fs)
  let vs ← fs.mapM (·.eval d')
  reduceMul vs

/-- The observables that appear more than once (functor.py:377-378). -/
def sharedObs (fs : List (Factor R V)) : List String :=
  (fs.flatMap (·.obs)).filter (fun o => decide (1 < (fs.flatMap (·.obs)).count o))

/-- `set(pdf.obs).isdisjoint(same_obs)`. -/
def Factor.isDisjoint (f : Factor R V) (shared : List String) : Bool := f.obs.all (fun o => decide (o ∉ shared))

/-- `_prod_disjoint_obs_pdfs` (functor.py:370-396): a factor is a group of its own if it shares no observable; the
others are put together in one product.  `none` if all share observables (`_prod_is_same_obs_pdf`). -/
def groups (fs : List (Factor R V)) : Option (List (List (Factor R V))) :=
  let shared := sharedObs fs
  let disj := fs.filter (·.isDisjoint shared)
  let same := fs.filter (fun f => !f.isDisjoint shared)
  if !same.isEmpty && !disj.isEmpty then some (disj.map (fun f => [f]) ++ [same])
  else if !disj.isEmpty then some (disj.map (fun f => [f]))
  else none

/-- `_integrate` (functor.py:413-422) without normalisation; `int g` is what `integrate` of the group `g` returns for
the part of the limits in its observables (`limits.with_obs(pdf.obs)`). -/
def productIntegrate [Mul V] (int : List (Factor R V) → Except Err V) (fs : List (Factor R V)) : Except Err V :=
  match groups fs with
  | none => .error .functionNotImplemented
  | some gs => do
    let vs ← gs.mapM int
    match vs with
    | [] => .error .typeError
    | v :: vs => return vs.foldl (· * ·) v

/-- A space as the normalisation range: its observables and its limits. -/
structure NSpace (L : Type) where
  obs : List String
  lim : L
  deriving DecidableEq

/-- `_pdf` (functor.py:403-411): with equal normalisation ranges it calls `pdf.pdf(var=x, norm=norm)`; there is no
argument `var`. -/
def productPdfHook {L : Type} [DecidableEq L] (fs : List (Factor R V × NSpace L)) (norm : NSpace L) : Except Err V :=
  if (groups (fs.map (·.1))).isSome && fs.all (fun f => decide (f.2 = norm)) then .error .typeError
  else .error .functionNotImplemented

end Zfit.Functor
