import Verif.Common.Py
import Mathlib.Data.Nat.Notation

/-!
# Model of the checks that are made when a class is defined

/repo/zfit/core/basemodel.py: `_BaseModel_register_check_support` (58-83), `BaseModel.__init_subclass__` (145-155),
`_subclass_check_support` (157-198); /repo/zfit/core/basepdf.py: `_BasePDF_register_check_support` (97-123), `__init_subclass__` (172-177);
/repo/zfit/core/binnedpdf.py: `_BinnedPDF_register_check_support` (64-90), `_subclass_check_support` (138-173);
/repo/zfit/minimizers/baseminimizer.py: `_Minimizer_register_check_support` (103-128), `__init_subclass__` and `_subclass_check_support`
(221-265); /repo/zfit/core/basemodel.py `SimpleModelSubclassMixin` (1367-1415).

A class is given by the dictionaries of the classes in its method resolution order, most derived first; the base class of zfit comes last.
Of a function only the decorators matter.
-/

namespace Zfit.Sub

/-- Decorators of a function: `@supports(...)` (or `@minimize_supports(...)`), another one made with `functools.wraps`, which sets
`__wrapped__` to the decorated function, and another one that returns a plain function. -/
inductive Deco
  | supports
  | wraps
  | plain
  deriving DecidableEq, Repr

/-- A method: the one of the base class, which is registered for the check, or a function of the user with decorators, outermost first. -/
inductive Fn
  | base
  | user (decos : List Deco)
  deriving DecidableEq, Repr

/-- What the attribute `__wrapped__` can be: the function `_..._register_check_support`, `supports`, something else. -/
inductive Mark
  | register
  | supports
  | other
  deriving DecidableEq, Repr

/-- The attribute `__wrapped__`: set by `register` (basemodel.py:80, basepdf.py:120, binnedpdf.py:87, baseminimizer.py:125), by `supports`
(space.py:3394) and `minimize_supports` (baseminimizer.py:94) after their decorators were applied, and by `functools.wraps`. -/
def Fn.wrapped : Fn → Option Mark
  | .base => some .register
  | .user [] => none
  | .user (.supports :: _) => some .supports
  | .user (.wraps :: _) => some .other
  | .user (.plain :: _) => none

/-- The dictionary of a class. -/
abbrev Dict := List (String × Fn)

/-- `getattr(cls, name)`: the first class in the method resolution order that has it. -/
def getattr? (mro : List Dict) (name : String) : Option Fn := mro.findSome? fun d => dictGet d name

/-- Why a class cannot be defined: `BasePDFSubclassingError` or `MinimizerSubclassingError`; `AttributeError`. -/
inductive Refusal
  | subclassing
  | attribute
  deriving DecidableEq, Repr

/-- The names registered in a module with the flag they are registered with. -/
abbrev Table := List (String × Bool)

/-- The dictionary of a base class that registers these names. -/
def Table.dict (t : Table) : Dict := t.map fun nb => (nb.1, .base)

/-- One turn of the loop in `BaseModel._subclass_check_support` (basemodel.py:159-198): the warnings that are given. -/
def modelMethod (name : String) (hasSupport : Bool) (fn : Fn) : Except Refusal (List String) :=
  if fn.wrapped = some .register then .ok []
  else
    match fn.wrapped with
    | some m =>
      if m = .supports then if hasSupport then .ok [] else .error .subclassing
      else if hasSupport then .error .subclassing else .ok []
    | none =>
      if hasSupport = false then .ok []
      else if name ∉ ["_pdf"] then .error .subclassing
      else .ok [name]

/-- The loop of `BaseModel._subclass_check_support` (basemodel.py:157-198): the warnings or the first error. -/
def modelCheck (mro : List Dict) : Table → Except Refusal (List String)
  | [] => .ok []
  | (name, flag) :: t =>
    match getattr? mro name with
    | none => .error .attribute
    | some fn =>
      match modelMethod name flag fn with
      | .error e => .error e
      | .ok w =>
        match modelCheck mro t with
        | .error e => .error e
        | .ok ws => .ok (w ++ ws)

/-- `_BaseModel_USER_IMPL_METHODS_TO_CHECK` in basemodel.py after its methods are registered (349, 509, 630, 710, 817, 923, 1143). -/
def modelTable : Table :=
  [("_partial_integrate", true), ("_partial_analytic_integrate", true), ("_partial_numeric_integrate", true), ("_integrate", true),
   ("_analytic_integrate", true), ("_numeric_integrate", true), ("_sample", true)]

/-- `_BasePDF_USER_IMPL_METHODS_TO_CHECK` (basepdf.py:240, 373, 430, 434, 504, 565). -/
def pdfTable : Table :=
  [("_normalization", true), ("_ext_pdf", true), ("_ext_log_pdf", true), ("_pdf", true), ("_log_pdf", true), ("_log_normalization", true)]

/-- Define a class that derives from `BasePDF`; `mro` are the dictionaries of the classes before it: `BasePDF.__init_subclass__`
(basepdf.py:172-177) after `BaseModel.__init_subclass__` (basemodel.py:145-152). The result are the warnings. -/
def definePdf (mro : List Dict) : Except Refusal (List String) :=
  match modelCheck (mro ++ [pdfTable.dict, modelTable.dict]) modelTable with
  | .error e => .error e
  | .ok w =>
    match modelCheck (mro ++ [pdfTable.dict, modelTable.dict]) pdfTable with
    | .error e => .error e
    | .ok w' => .ok (w ++ w')

/-- Define a class that derives from `BaseFunc` (core/basefunc.py), which registers nothing itself. -/
def defineFunc (mro : List Dict) : Except Refusal (List String) := modelCheck (mro ++ [modelTable.dict]) modelTable

/-- One turn of the loop in `BaseMinimizer._subclass_check_support` (baseminimizer.py:232-265). -/
def minimizerMethod (hasSupport : Bool) (fn : Option Fn) : Except Refusal Unit :=
  match fn with
  | none => .ok ()
  | some fn =>
    if fn.wrapped = some .register then .ok ()
    else
      match fn.wrapped with
      | some m =>
        if m = .supports then if hasSupport then .ok () else .error .subclassing
        else if hasSupport then .error .subclassing else .ok ()
      | none => if hasSupport = false then .ok () else .error .subclassing

/-- The loop. -/
def minimizerCheck (mro : List Dict) : Table → Except Refusal Unit
  | [] => .ok ()
  | (name, flag) :: t =>
    match minimizerMethod flag (getattr? mro name) with
    | .error e => .error e
    | .ok _ => minimizerCheck mro t

/-- `_Minimizer_CHECK_HAS_SUPPORT` (baseminimizer.py:524). -/
def minimizerTable : Table := [("_minimize", true)]

/-- Define a class that derives from `BaseMinimizer` (baseminimizer.py:221-228). -/
def defineMinimizer (mro : List Dict) : Except Refusal Unit := minimizerCheck (mro ++ [minimizerTable.dict]) minimizerTable

/-- One turn of the loop in `BaseBinnedPDF._subclass_check_support` (binnedpdf.py:140-173). -/
def binnedMethod (hasSupport : Bool) (fn : Fn) : Except Refusal Unit :=
  if fn.wrapped = some .register then .ok ()
  else
    match fn.wrapped with
    | some m =>
      if m = .supports then if hasSupport then .ok () else .error .subclassing
      else if hasSupport then .error .subclassing else .ok ()
    | none => if hasSupport = false then .ok () else .error .subclassing

/-- The loop, which nothing calls. -/
def binnedCheck (mro : List Dict) : Table → Except Refusal Unit
  | [] => .ok ()
  | (name, flag) :: t =>
    match getattr? mro name with
    | none => .error .attribute
    | some fn =>
      match binnedMethod flag fn with
      | .error e => .error e
      | .ok _ => binnedCheck mro t

/-- `_BaseModel_USER_IMPL_METHODS_TO_CHECK` in binnedpdf.py (285, 374, 458, 539, 621, 662, 703, 836, 1062, 1227, 1294). -/
def binnedTable : Table :=
  [("_pdf", true), ("_ext_pdf", true), ("_log_pdf", true), ("_ext_log_pdf", true), ("_log_normalization", true), ("_normalization", true),
   ("_integrate", true), ("_ext_integrate", true), ("_sample", true), ("_counts", true), ("_rel_counts", true)]

/-- Define a class that derives from `BaseBinnedPDF`: there is no `__init_subclass__` in binnedpdf.py, and those of its bases
(baseobject.py:37, util/cache.py:110) check no methods. -/
def defineBinned (_mro : List Dict) : Except Refusal Unit := .ok ()

/-! ## Models with a list of parameters -/

/-- What a class body says about `_PARAMS`: nothing, or a list whose elements are strings (`some`) or something else (`none`). -/
abbrev Declared := Option (List (Option String))

/-- `SimpleModelSubclassMixin._check_simple_model_subclass` (basemodel.py:1400-1415), called when a class that derives from `ZPDF` or
`ZFunc` is defined (models/special.py:67-69, models/functions.py:100-102); `cls._PARAMS` is inherited. The result are the names. -/
def defineSimple (mro : List Declared) : Except Zfit.Err (List String) :=
  match mro.findSome? id with
  | none => .error .userException
  | some params => if none ∈ params then .error .typeError else .ok (params.filterMap id)

/-- `{name: kwargs.pop(name) for name in self._PARAMS}` (basemodel.py:1390): the parameters and what is left. -/
def popAll {V : Type} : List String → List (String × V) → Except Zfit.Err (List (String × V) × List (String × V))
  | [], kw => .ok ([], kw)
  | n :: ns, kw =>
    match dictGet kw n with
    | none => .error .valueError
    | some v =>
      match popAll ns (kw.filter fun kv => decide (kv.1 ≠ n)) with
      | .error e => .error e
      | .ok (ps, rest) => .ok ((n, v) :: ps, rest)

/-- The keyword arguments that `BasePDF.__init__` (basepdf.py:147-156) and the constructors of its bases (basemodel.py:110-117,
baseobject.py:91, 247) take, other than `params`. -/
def pdfKeywords : List String := ["obs", "dtype", "label", "extended", "norm", "name", "autograd_params"]

/-- Make an instance: `ZPDF.__init__` (models/special.py:54-65) hands its named arguments and all others on to
`SimpleModelSubclassMixin.__init__` (basemodel.py:1388-1397), from there to `BasePDF.__init__` together with `params`. `BasePDF.__init__`
needs `obs`; `BaseObject.__init__` (baseobject.py:31-32) asserts that no unknown keyword is left. The result are the parameters and the
other arguments. -/
def makeSimple {V : Type} (names : List String) (kwargs : List (String × V)) :
    Except Zfit.Err (List (String × V) × List (String × V)) :=
  match popAll names kwargs with
  | .error e => .error e
  | .ok (ps, rest) =>
    if "params" ∈ rest.map (·.1) then .error .typeError
    else if "obs" ∉ rest.map (·.1) then .error .typeError
    else if ∀ kv ∈ rest, kv.1 ∈ pdfKeywords then .ok (ps, rest) else .error .assertionError

end Zfit.Sub
