import Verif.Functor.ProductModel

/-! Products of products: formulas of `ProductPDF`s (zfit/models/functor.py:321-473). -/

namespace Zfit.Functor

open Zfit Zfit.Dat

variable {R V : Type}

/-- What a user writes: a PDF or `ProductPDF(parts)`. -/
inductive Product (R V : Type)
  | pdf (f : Factor R V)
  | prod (parts : List (Product R V))

mutual
/-- The observables; those of a product are made from those of its parts (basefunctor.py:50-60, 143-150). -/
def Product.obs : Product R V → List String
  | .pdf f => f.obs
  | .prod parts => commonObs (obsAll parts)

/-- The observables of the parts. -/
def obsAll : List (Product R V) → List (List String)
  | [] => []
  | p :: ps => Product.obs p :: obsAll ps
end

mutual
/-- `pdf(x, norm=False)`: a product brings the data into the order of its observables (`_convert_sort_x`) and multiplies what
`pdf(x, norm=False)` of its parts gives (functor.py:398-401). -/
def Product.eval [Mul V] : Product Rat V → Data → Except Err (List V)
  | .pdf f, d => f.eval d
  | .prod parts, d => do
    let d' ← d.withObs (commonObs (obsAll parts))
    let vs ← evalAll parts d'
    reduceMul vs

/-- The values of the parts. -/
def evalAll [Mul V] : List (Product Rat V) → Data → Except Err (List (List V))
  | [], _ => .ok []
  | p :: ps, d => do
    let v ← Product.eval p d
    let vs ← evalAll ps d
    return v :: vs
end

end Zfit.Functor
