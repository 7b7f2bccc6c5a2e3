import Verif.Common.Py
import Mathlib.Data.Nat.Notation

/-!
# Model of the warnings that are given once

/repo/zfit/util/warnings.py, the settings they look at (/repo/zfit/settings.py:134-150) and the warning about functions that are removed from
the cache of compiled functions (/repo/zfit/z/zextension.py:308-321).

`settings.advanced_warnings` and `settings.changed_warnings` are `DotMap`s (external): looking at a key that is not there makes an empty
`DotMap` there, which counts as false.  A warning is what is handed to `warnings.warn`; the filters of Python are not modelled.  The text is
not modelled.
-/

namespace Zfit.Run

open Zfit

/-- The two families of warnings that have settings. -/
inductive Family
  | advanced
  | changed
  deriving DecidableEq, Repr

/-- The settings as `DotMap`s (with what counts as true), the identifiers warned about (`warned_advanced`, `warned_changed`,
`warned_changing`, `warned_once`) and the decorated functions whose `warned` is true. -/
structure Warn where
  advanced : List (String × Bool)
  changed : List (String × Bool)
  warnedAdvanced : List String
  warnedChanged : List String
  warnedChanging : List String
  warnedOnce : List String
  experimental : List ℕ
  deriving DecidableEq, Repr

/-- At import (settings.py:134-150). -/
def Warn.init : Warn :=
  ⟨[("sum_extended_frac", true), ("exp_shift", true), ("py_func_autograd", true), ("inconsistent_fitrange", true),
    ("extended_in_UnbinnedNLL", true), ("all", true)], [("new_sum", true), ("all", true)], [], [], [], [], []⟩

/-- The settings of a family. -/
def Warn.settings (w : Warn) : Family → List (String × Bool)
  | .advanced => w.advanced
  | .changed => w.changed

/-- New settings of a family. -/
def Warn.putSettings (w : Warn) (f : Family) (s : List (String × Bool)) : Warn :=
  match f with
  | .advanced => { w with advanced := s }
  | .changed => { w with changed := s }

/-- The identifiers of a family that were warned about. -/
def Warn.warned (w : Warn) : Family → List String
  | .advanced => w.warnedAdvanced
  | .changed => w.warnedChanged

/-- `set.add` -/
def addTo (l : List String) (id : String) : List String := if id ∈ l then l else l ++ [id]

/-- `warned_advanced.add(identifier)` and `warned_changed.add(identifier)`. -/
def Warn.putWarned (w : Warn) (f : Family) (id : String) : Warn :=
  match f with
  | .advanced => { w with warnedAdvanced := addTo w.warnedAdvanced id }
  | .changed => { w with warnedChanged := addTo w.warnedChanged id }

/-- `settings.….all`: an absent key is made, as something false. -/
def Warn.lookAt (w : Warn) (f : Family) (key : String) : Warn × Bool :=
  match dictGet (w.settings f) key with
  | some b => (w, b)
  | none => (w.putSettings f (dictSet (w.settings f) key false), false)

/-- What the user and the library do: use an advanced or a changed feature, use a feature that will change, ask for a warning to be given
once, call a function decorated as experimental, set or look at a setting. -/
inductive WOp
  | feature (f : Family) (id : String)
  | changing (id : String)
  | once (id : String)
  | experimental (func : ℕ)
  | set (f : Family) (key : String) (b : Bool)
  | look (f : Family) (key : String)
  deriving DecidableEq, Repr

/-- A warning that is given. -/
inductive Given
  | feature (f : Family) (id : String)
  | changing (id : String)
  | once (id : String)
  | experimental (func : ℕ)
  deriving DecidableEq, Repr

/-- `warn_advanced_feature` (41-57) and `warn_changed_feature` (67-82), which are alike: `and` looks at `all` only if the identifier is not
switched off. -/
def warnFeature (w : Warn) (f : Family) (id : String) : Warn × Option Given :=
  if (dictGet (w.settings f) id).getD true then
    let r := w.lookAt f "all"
    if r.2 && decide (id ∉ r.1.warned f) then (r.1.putWarned f id, some (.feature f id)) else (r.1, none)
  else (w, none)

/-- `warn_changing_feature` (88-91): looks at the identifiers of another family. -/
def warnChanging (w : Warn) (id : String) : Warn × Option Given :=
  if id ∉ w.warnedChanged then ({ w with warnedChanging := addTo w.warnedChanging id }, some (.changing id)) else (w, none)

/-- `warn_once` (97-100). -/
def warnOnce (w : Warn) (id : String) : Warn × Option Given :=
  if id ∉ w.warnedOnce then ({ w with warnedOnce := addTo w.warnedOnce id }, some (.once id)) else (w, none)

/-- `warn_experimental_feature` (12-31). -/
def warnExperimental (w : Warn) (func : ℕ) : Warn × Option Given :=
  if func ∉ w.experimental then ({ w with experimental := w.experimental ++ [func] }, some (.experimental func)) else (w, none)

/-- One operation. -/
def Warn.step (w : Warn) : WOp → Warn × Option Given
  | .feature f id => warnFeature w f id
  | .changing id => warnChanging w id
  | .once id => warnOnce w id
  | .experimental func => warnExperimental w func
  | .set f key b => (w.putSettings f (dictSet (w.settings f) key b), none)
  | .look f key => ((w.lookAt f key).1, none)

/-- The warnings of a history, in order. -/
def Warn.run (w : Warn) : List WOp → Warn × List Given
  | [] => (w, [])
  | op :: ops => (((w.step op).1.run ops).1, (w.step op).2.toList ++ ((w.step op).1.run ops).2)

/-! ## Functions removed from the cache -/

/-- `collections.Counter` of the hashes of the removed holders. -/
def count (c : List (ℕ × ℕ)) (h : ℕ) : ℕ := (dictGet c h).getD 0

/-- The holder with the hash `h` is removed from the full cache (zextension.py:308-321): it is counted, and from the fourth time on there is
a warning.  The difference of the counters in 318-320 is computed and not kept. -/
def evict (c : List (ℕ × ℕ)) (h : ℕ) : List (ℕ × ℕ) × Bool :=
  let c' := dictSet c h (count c h + 1)
  (c', decide (count c' h > 3))

/-- The hashes warned about, in order. -/
def evictions (c : List (ℕ × ℕ)) : List ℕ → List ℕ
  | [] => []
  | h :: hs => (if (evict c h).2 then [h] else []) ++ evictions (evict c h).1 hs

end Zfit.Run
