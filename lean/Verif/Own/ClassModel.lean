import Verif.Common.Py
import Mathlib.Data.Nat.Notation

/-!
# Classes of models: the check of the hooks, the registries, `_PARAMS` and binned observables

/repo/zfit/core/basemodel.py, core/basepdf.py, core/binnedpdf.py, core/integration.py, minimizers/baseminimizer.py, models/special.py.
-/

namespace Zfit.Own

open Zfit

/-! ## The check of the hooks -/

/-- What `__wrapped__` of a method tells: nothing (a plain function), the method of the base class (the function that registered it), the
decorator, or something else (another decorator that uses `functools.wraps`). -/
inductive Mark
  | plain
  | base
  | deco
  | other
  deriving DecidableEq, Repr

/-- A class as the list of the dictionaries of its method resolution order, its own first: the methods that are defined in each. -/
abbrev Mro := List (List (String × Mark))

/-- `getattr(cls, name)` (basemodel.py:160): the first in the method resolution order. -/
def Mro.attr (c : Mro) (name : String) : Option Mark := c.findSome? fun d => dictGet d name

/-- What a class statement does: the class is made, `BasePDFSubclassingError`/`MinimizerSubclassingError`, or an `AttributeError`. -/
inductive Refused
  | subclassing (name : String)
  | noAttribute (name : String)
  deriving DecidableEq, Repr

/-- One method in `_subclass_check_support` (basemodel.py:159-199; binnedpdf.py:140-175 has no exception for `_pdf`); `need` is what was
registered for the method, `warnOnly` are the names for which the last step only warns. -/
def checkMethod (warnOnly : List String) (c : Mro) (name : String) (need : Bool) : Except Refused Unit :=
  match c.attr name with
  | none => .error (.noAttribute name)
  | some .base => .ok ()
  | some .deco => if need then .ok () else .error (.subclassing name)
  | some .other => if need then .error (.subclassing name) else .ok ()
  | some .plain => if !need then .ok () else if name ∈ warnOnly then .ok () else .error (.subclassing name)

/-- `_subclass_check_support` for a registry. -/
def checkSupport (warnOnly : List String) (registry : List (String × Bool)) (c : Mro) : Except Refused Unit :=
  registry.forM fun e => checkMethod warnOnly c e.1 e.2

/-- `_BaseModel_USER_IMPL_METHODS_TO_CHECK` (basemodel.py:349, 509, 630, 710, 817, 923, 1143). -/
def modelRegistry : List (String × Bool) :=
  [("_integrate", true), ("_analytic_integrate", true), ("_numeric_integrate", true), ("_partial_integrate", true),
    ("_partial_analytic_integrate", true), ("_partial_numeric_integrate", true), ("_sample", true)]

/-- `_BasePDF_USER_IMPL_METHODS_TO_CHECK` (basepdf.py:240, 373, 430, 434, 504, 565). -/
def pdfRegistry : List (String × Bool) :=
  [("_normalization", true), ("_ext_pdf", true), ("_ext_log_pdf", true), ("_pdf", true), ("_log_pdf", true), ("_log_normalization", true)]

/-- The methods of binned PDFs (binnedpdf.py:285, 374, 458, 539, 621, 662, 703, 836, 1062, 1227, 1294). -/
def binnedRegistry : List (String × Bool) :=
  [("_pdf", true), ("_ext_pdf", true), ("_log_pdf", true), ("_ext_log_pdf", true), ("_log_normalization", true), ("_normalization", true),
    ("_integrate", true), ("_ext_integrate", true), ("_sample", true), ("_counts", true), ("_rel_counts", true)]

/-- `_Minimizer_CHECK_HAS_SUPPORT` (baseminimizer.py:524). -/
def minimizerRegistry : List (String × Bool) := [("_minimize", true)]

/-- Defining a subclass of `BasePDF` (basepdf.py:169-174, where `super().__init_subclass__` is basemodel.py:147-154). -/
def definePdf (c : Mro) : Except Refused Unit := do
  checkSupport ["_pdf"] modelRegistry c
  checkSupport ["_pdf"] pdfRegistry c

/-- Defining a subclass of `BaseBinnedPDF` (binnedpdf.py:139-175). -/
def defineBinned (c : Mro) : Except Refused Unit := checkSupport [] binnedRegistry c

/-- Defining a minimiser (baseminimizer.py:221-265); the base class has the method, so that it is never absent. -/
def defineMinimizer (c : Mro) : Except Refused Unit := checkSupport [] minimizerRegistry c

/-! ## The registries of analytic integrals -/

/-- What is registered for a class: the integrals by their limits, in a dict, and the inverse, a list of at most one. -/
structure Reg (L F : Type) where
  integrals : List (L × F)
  inverse : List F

/-- Statements: a class is defined (a subclass of class number `parent`, of which nothing is taken), an integral or an inverse is
registered with a class. -/
inductive Stmt (L F : Type)
  | subclass (parent : ℕ)
  | integral (cls : ℕ) (limits : L) (f : F)
  | inverse (cls : ℕ) (f : F)

/-- The registries as objects, and for each class the one that is its attribute.  Class 0 is `BaseModel` itself, where the attributes are
`None` (basemodel.py:106-107). -/
structure Classes (L F : Type) where
  objects : List (Reg L F)
  attr : List (Option ℕ)

def Classes.init {L F : Type} : Classes L F := ⟨[], [none]⟩

/-- One statement: `__init_subclass__` gives the class new registries (basemodel.py:155-156), `register_analytic_integral` (481-494 with
integration.py:675-683, for limits that are a space) and `register_inverse_analytic_integral` (504-507) change those of the class; for
`BaseModel`, or a class that is not there, nothing is changed (an exception). -/
def Classes.step {L F : Type} [DecidableEq L] (s : Classes L F) : Stmt L F → Classes L F
  | .subclass _ => ⟨s.objects ++ [⟨[], []⟩], s.attr ++ [some s.objects.length]⟩
  | .integral cls limits f =>
    match s.attr[cls]? with
    | some (some r) => { s with objects := s.objects.modify r fun reg => { reg with integrals := dictSet reg.integrals limits f } }
    | _ => s
  | .inverse cls f =>
    match s.attr[cls]? with
    | some (some r) => { s with objects := s.objects.modify r fun reg => { reg with inverse := if reg.inverse.isEmpty then reg.inverse ++ [f] else reg.inverse.set 0 f } }
    | _ => s

def Classes.run {L F : Type} [DecidableEq L] (h : List (Stmt L F)) : Classes L F := h.foldl Classes.step .init

/-- The registries of a class. -/
def Classes.reg {L F : Type} (s : Classes L F) (cls : ℕ) : Option (Reg L F) :=
  match s.attr[cls]? with
  | some (some r) => s.objects[r]?
  | _ => none

/-- Which integral is found for limits that are registered as they are (`self._integrals[axes][lim]`, integration.py:642). -/
def Classes.found {L F : Type} [DecidableEq L] (s : Classes L F) (cls : ℕ) (limits : L) : Option F :=
  (s.reg cls).bind fun r => dictGet r.integrals limits

/-- `self._inverse_analytic_integral[0]`. -/
def Classes.foundInverse {L F : Type} (s : Classes L F) (cls : ℕ) : Option F := (s.reg cls).bind fun r => r.inverse[0]?

/-! ## `_PARAMS` -/

/-- An element of `_PARAMS`. -/
inductive PName
  | str (s : String)
  | other
  deriving DecidableEq, Repr

/-- Outcomes of defining a class with `_PARAMS` and of making an object. -/
inductive SimpleErr
  | subclassing
  | typeError
  | missing
  | notCaptured
  deriving DecidableEq, Repr

/-- `_check_simple_model_subclass` (basemodel.py:1400-1415); `none` if the class and its bases have no `_PARAMS`. -/
def defineSimple : Option (List PName) → Except SimpleErr Unit
  | none => .error .subclassing
  | some ps => if ps.any (· = .other) then .error .typeError else .ok ()

variable {V : Type}

/-- `{name: kwargs.pop(name) for name in self._PARAMS}` (1389-1396): the values in the order of `_PARAMS` and the keywords that remain. -/
def popAll : List String → List (String × V) → List (String × V) → Except SimpleErr (List (String × V) × List (String × V))
  | [], got, kw => .ok (got, kw)
  | n :: ns, got, kw =>
    match dictGet kw n with
    | some v => popAll ns (dictSet got n v) (kw.filter fun e => e.1 ≠ n)
    | none => .error .missing

/-- The arguments that the constructors of the base classes take (basepdf.py:147-158, basemodel.py:110-117, baseobject.py:85-110). -/
def taken : List String := ["obs", "dtype", "label", "extended", "norm", "name", "autograd_params"]

/-- The constructor of a `ZPDF` (special.py:54-69): `defaults` are the arguments it names itself, with the values given or the defaults;
`kw` the other keywords.  The parameters of the PDF, or what is raised: missing parameters (1391-1396), a second `params` (1397, a
`TypeError`), or keywords that nobody takes (baseobject.py:33). -/
def makeSimple (params : List String) (named : List (String × V)) (kw : List (String × V)) : Except SimpleErr (List (String × V)) :=
  match popAll params [] (named ++ kw) with
  | .error e => .error e
  | .ok (got, rest) =>
    if "params" ∈ rest.map (·.1) then .error .typeError
    else if "obs" ∉ rest.map (·.1) then .error .typeError
    else if rest.all fun e => e.1 ∈ taken then .ok got
    else .error .notCaptured

/-! ## Binned observables -/

/-- A space: which observables and limits, and the binning if there is one. -/
structure ObsSpace where
  which : ℕ
  binning : Option ℕ
  deriving DecidableEq, Repr

/-- An argument of a constructor: a space, `None`, `False`, or something else (a number, a parameter, a name, limits). -/
inductive Arg
  | space (s : ObsSpace)
  | none
  | false
  | val (v : ℕ)
  deriving DecidableEq, Repr

/-- An unbinned PDF, as far as it is used to make a binned one. -/
structure Unb where
  space : ObsSpace
  yield : Option Arg
  name : Arg
  deriving DecidableEq, Repr

/-- A binned PDF: its space, yield, normalisation, name and the label, `none` for one made of the name of the unbinned PDF. -/
structure Bin where
  space : ObsSpace
  yield : Option Arg
  norm : ObsSpace
  name : Arg
  label : Option Arg
  deriving DecidableEq, Repr

inductive Pdf
  | unbinned (p : Unb)
  | binned (p : Bin)
  deriving DecidableEq, Repr

/-- `kwargs.get(k)`. -/
def getArg (kw : List (String × Arg)) (k : String) : Arg := (dictGet kw k).getD .none

/-- The yield of the binned PDF: that given, else that of the unbinned PDF if it is extended (tobinned.py:73-80); none for `None` and
`False` (binnedpdf.py:112-115). -/
def binYield (own : Option Arg) (given : Arg) : Option Arg :=
  let extended := match own, given with
    | some y, .none => y
    | _, e => e
  if extended = .none ∨ extended = .false then none else some extended

/-- `BinnedFromUnbinnedPDF.__init__` for a space (tobinned.py:72-103) with `BaseBinnedPDF.__init__` (binnedpdf.py:99-118), `_check_convert_obs_init`,
`_check_convert_norm_init` (126-136) and `norm` (1072-1076). -/
def toBinned (pdf : Unb) (space : ObsSpace) (extended norm name label : Arg) : Except Err Bin :=
  if space.binning.isNone then .error .valueError
  else
    let norm : Except Err ObsSpace := match norm with
      | .none => .ok space
      | .space s => .ok s
      | _ => .error .valueError
    norm.map fun norm =>
      ⟨space, binYield pdf.yield extended, norm, name, if label = .none then none else some label⟩

/-- `PDFMeta.__call__` (basepdf.py:125-143); `obs` is the keyword argument, `make` the constructor of the class. -/
def metaCall (make : List Arg → List (String × Arg) → Except Err Unb) (args : List Arg) (obs : Arg) (kwargs : List (String × Arg)) :
    Except Err Pdf :=
  match obs with
  | .none => (make args kwargs).map .unbinned
  | .space s =>
    match s.binning with
    | none => (make args (dictSet kwargs "obs" (.space s))).map .unbinned
    | some _ =>
      let kw := dictSet kwargs "obs" (.space { s with binning := none })
      match make args kw with
      | .error e => .error e
      | .ok pdf => (toBinned pdf s (getArg kw "extended") (getArg kw "norm") (getArg kw "name") (getArg kw "label")).map .binned
  | a => (make args (dictSet kwargs "obs" a)).map .unbinned

end Zfit.Own
