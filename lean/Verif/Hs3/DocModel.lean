import Verif.Io.SerialModel
import Mathlib.Data.Rat.Defs
import Mathlib.Algebra.Field.Rat

/-!
# Model of what loading does to the document, and of the fields of PDFs in documents

/repo/zfit/serialization/serializer.py: `from_hs3` (409-421).
/repo/zfit/serialization/pdfrepr.py: `BasePDFRepr` (12-31): the fields of a PDF (no norm).
/repo/zfit/models/basefunctor.py: `FunctorPDFRepr` (130-143), `_preprocess_init_sum` (155-252).
/repo/zfit/models/functor.py: `SumPDF.__init__` (138-170), `SumPDFRepr` (306-319).
/repo/zfit/core/basepdf.py: `BasePDF.__init__` (165-166), `_set_yield` (749-763).

The type `J` of JSON values and `typeOf` are those of Verif/Io/SerialModel.lean.
-/

namespace Zfit.Hs3

open Zfit Zfit.Io

/-! ## The document -/

/-- A document as a mapping: the variables and the rest (distributions, data, constraints, losses, metadata). -/
structure Mapping where
  vars : Fields
  rest : J

/-- One variable in the loop of `from_hs3` (410-419): `paramdict["type"] = ...` or, for spaces, `variables_holder.pop(param)` (`none`).  The
values of variables are dictionaries; anything else is dropped here (the code would raise). -/
def markVar : J → Option J
  | .obj fields => (typeOf fields).map fun t => .obj (dictSet fields "type" (.str t))
  | _ => none

/-- The loop (409-419). -/
def markVars : Fields → Fields
  | [] => []
  | (k, v) :: rest => match markVar v with
    | some v' => (k, v') :: markVars rest
    | none => markVars rest

/-- What the argument of `from_hs3` is after the call: the loop works on it, not on a copy. -/
def after (m : Mapping) : Mapping := { m with vars := markVars m.vars }

/-- What is loaded (421: `pre_deserialize`, on a copy of the changed argument). -/
def prepared (m : Mapping) : Mapping :=
  { vars := (after m).vars, rest := backward (after m).vars (after m).rest }

/-! ## PDFs -/

/-- The argument `extended`: not given, a flag, or a yield. -/
inductive ExtIn (E : Type) where
  | none
  | flag (b : Bool)
  | yield (y : E → ℚ)

mutual
/-- A PDF as it is held: a basic one with its type and parameters, space, norm (if not the default) and yield; or a sum with its
fractions, its yield and the argument `extended` it was made with (`original_init`).  Fractions and yields are functions of the values `E` of
the parameters.  Other functors are left out. -/
inductive Pdf (E S : Type) where
  | basic (type : String) (params : List String) (space : S) (norm : Option S) (yield : Option (E → ℚ))
  | sum (pdfs : Pdfs E S) (fracs : List (E → ℚ)) (yield : Option (E → ℚ)) (given : ExtIn E)
inductive Pdfs (E S : Type) where
  | nil
  | cons (p : Pdf E S) (ps : Pdfs E S)
end

variable {E S X : Type}

/-- `pdf.get_yield()`. -/
def Pdf.yield : Pdf E S → Option (E → ℚ)
  | .basic _ _ _ _ y => y
  | .sum _ _ y _ => y

/-- `pdf.is_extended` (basepdf.py:765-771). -/
def Pdf.isExtended (p : Pdf E S) : Bool := p.yield.isSome

def Pdfs.yields : Pdfs E S → List (Option (E → ℚ))
  | .nil => []
  | .cons p ps => p.yield :: ps.yields

/-- Yields added (`sum_yields_func`, basefunctor.py:227). -/
def total (ys : List (E → ℚ)) : E → ℚ := fun e => (ys.map fun y => y e).sum

/-- `_preprocess_init_sum(fracs, obs, pdfs)` (155-252): the fractions of the sum.  The check of the observables is left out. -/
def sumFracs (yields : List (Option (E → ℚ))) (fracs : List (E → ℚ)) : Except Err (List (E → ℚ)) :=
  if yields.length < 2 then .error .valueError
  else if fracs.length = 0 then
    if yields.all Option.isSome then
      let ys := yields.filterMap id
      .ok (ys.map fun y => fun e => y e / total ys e)
    else .error .modelIncompatible
  else if fracs.length = yields.length - 1 then .ok (fracs ++ [fun e => 1 - total fracs e])
  else if fracs.length = yields.length then .ok fracs
  else .error .modelIncompatible

/-- The yield of a sum (functor.py:160-166): a sum of extended PDFs without fractions is extended by default; `extended=True` otherwise is
taken for the number one (`convert_to_parameter(True)`). -/
def sumYield (yields : List (Option (E → ℚ))) (fracs : List (E → ℚ)) (given : ExtIn E) : Option (E → ℚ) :=
  let auto := yields.all Option.isSome && fracs.length = 0
  match given with
  | .none => if auto then some (total (yields.filterMap id)) else none
  | .flag true => if auto then some (total (yields.filterMap id)) else some fun _ => 1
  | .flag false => none
  | .yield y => some y

/-- `SumPDF(pdfs, fracs, extended=given)` (functor.py:138-170). -/
def mkSum (pdfs : Pdfs E S) (fracs : List (E → ℚ)) (given : ExtIn E) : Except Err (Pdf E S) :=
  match sumFracs pdfs.yields fracs with
  | .error e => .error e
  | .ok fs => .ok (.sum pdfs fs (sumYield pdfs.yields fracs given) given)

/-! ## Saving and loading a PDF -/

mutual
/-- Save and load (`from_hs3(to_hs3(pdf))`).  A basic PDF keeps type, parameters, space and yield, not the norm (pdfrepr.py:16-18).  A
sum keeps its PDFs, *its* fractions (`pdf.fracs`) and the argument `extended` it was made with (basefunctor.py:140-142, functor.py:309), and is
made again with these. -/
def reload : Pdf E S → Except Err (Pdf E S)
  | .basic t ps s _ y => .ok (.basic t ps s none y)
  | .sum pdfs fracs _ given => match reloads pdfs with
    | .error e => .error e
    | .ok pdfs' => mkSum pdfs' fracs given
def reloads : Pdfs E S → Except Err (Pdfs E S)
  | .nil => .ok .nil
  | .cons p ps => match reload p with
    | .error e => .error e
    | .ok p' => match reloads ps with
      | .error e => .error e
      | .ok ps' => .ok (.cons p' ps')
end

mutual
/-- The density (`pdf.pdf(x)`; functor.py:180-185): `basic` is that of the basic PDFs. -/
def density (basic : String → List String → S → S → E → X → ℚ) (e : E) (x : X) : Pdf E S → ℚ
  | .basic t ps s norm _ => basic t ps s (norm.getD s) e x
  | .sum pdfs fracs _ _ => densities basic e x fracs pdfs
def densities (basic : String → List String → S → S → E → X → ℚ) (e : E) (x : X) (fracs : List (E → ℚ)) : Pdfs E S → ℚ
  | .nil => 0
  | .cons p ps => match fracs with
    | [] => 0
    | f :: fs => f e * density basic e x p + densities basic e x fs ps
end

end Zfit.Hs3
