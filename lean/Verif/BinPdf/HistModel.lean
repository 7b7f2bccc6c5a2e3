import Verif.BinPdf.HookModel

/-!
# Model of the histogram-like PDFs

/repo/zfit/models/histogram.py, template.py, histmodifier.py, binned_functor.py: which hooks they implement and how.
-/

namespace Zfit.BinPdf

open Zfit Zfit.Bin

/-- `znp.sum(values)`: the sum over all bins. -/
def tot (edges : List (List Rat)) (c : Arr) : Rat := ((allIdx (edges.map (fun e => e.length - 1))).map c).sum

/-- The area of a bin. -/
def areaOf (edges : List (List Rat)) (idx : List Nat) : Rat := ((edges.zip idx).map (fun q => width q.1 q.2)).prod

/-- `check_norm` (core/space.py:3226-3308) around a hook: a norm for which `ok` does not hold raises, `norm=False` never does. -/
def supportsNorm (ok : Box → Bool) (v : Except Err Arr) (norm : Option Box) : Except Err Arr :=
  match norm with
  | none => v
  | some n => if ok n then v else .error .normNotImplemented

/-- The argument `extended`: `True` (or not given), a number (the value of a parameter), `False`. -/
inductive Ext
  | auto
  | given (y : Rat)
  | no

/-- The yield for an automatic yield `total`. -/
def Ext.yield (e : Ext) (total : Rat) : Option Rat :=
  match e with
  | .auto => some total
  | .given y => some y
  | .no => none

/-- A result only available if the yield is automatic: `if not self._automatically_extended: raise SpecificFunctionNotImplemented`. -/
def Ext.ifAuto (e : Ext) (c : Arr) : Except Err Arr :=
  match e with
  | .auto => .ok c
  | _ => .error .functionNotImplemented

/-- `HistogramPDF` (models/histogram.py:16-94). -/
def histogramPdf (edges : List (List Rat)) (values : Arr) (space norm : Box) (ext : Ext) : BPdf where
  edges := edges
  space := space
  norm := norm
  yield := ext.yield (tot edges values)
  pdf := some (supportsNorm (fun n => n = space) (.ok (fun i => values i / tot edges values / areaOf edges i)))
  extPdf := some (supportsNorm (fun n => n = space) (ext.ifAuto (fun i => values i / areaOf edges i)))
  counts := some (supportsNorm (fun n => n = space) (ext.ifAuto values))
  relCounts := some (supportsNorm (fun n => n = space) (.ok (fun i => values i / tot edges values)))

/-- `values * sysshape` (models/template.py:74-77). -/
def shaped (values sysshape : Arr) : Arr := fun i => values i * sysshape i

/-- `BinnedTemplatePDFV1` (models/template.py:13-87); without systematics `sysshape` is one everywhere. `extended=False` leaves
`_automatically_extended` unset, which is not noticed as `counts` checks the extension first. `_ext_pdf` is not decorated, but the
`_counts` it calls is. -/
def templatePdf (edges : List (List Rat)) (values sysshape : Arr) (space norm : Box) (ext : Ext) : BPdf where
  edges := edges
  space := space
  norm := norm
  yield := ext.yield (tot edges (shaped values sysshape))
  pdf := some (supportsNorm (fun _ => false)
    (.ok (fun i => shaped values sysshape i / tot edges (shaped values sysshape) / areaOf edges i)))
  extPdf := some (supportsNorm (fun n => n = norm) (ext.ifAuto (fun i => shaped values sysshape i / areaOf edges i)))
  counts := some (supportsNorm (fun n => n = norm) (ext.ifAuto (shaped values sysshape)))
  relCounts := some (supportsNorm (fun n => n = norm)
    (.ok (fun i => shaped values sysshape i / tot edges (shaped values sysshape))))

/-- `BinwiseScaleModifier` (models/histmodifier.py:23-128) of a pdf with public method `counts` as given.
With an automatic yield the yield is the sum of the counts with the default norm (81-84); 105-106 (no modifiers) is left out. -/
def modifiedPdf (edges : List (List Rat)) (baseCounts : Option Box → Except Err Arr) (modifiers : Arr) (space norm : Box) (ext : Ext) :
    BPdf where
  edges := edges
  space := space
  norm := norm
  yield := ext.yield (match baseCounts (some norm) with
    | .ok c => tot edges (shaped c modifiers)
    | .error _ => 0)
  counts := some (fun n => match ext with
    | .auto => (baseCounts n).map (fun c => shaped c modifiers)
    | _ => .error .functionNotImplemented)
  relCounts := some (fun n =>
    supportsNorm (fun b => b = space) ((baseCounts n).map (fun c => fun i => shaped c modifiers i / tot edges (shaped c modifiers))) n)

/-- What a sum uses of a component: its norm and the results of its public methods with their default norm. -/
structure Component where
  norm : Box
  pdf : Except Err Arr
  extPdf : Except Err Arr
  counts : Except Err Arr
  relCounts : Except Err Arr

/-- The weighted sum of the components' results; the first exception is passed on. -/
def sumArrs : List (Except Err Arr) → List Rat → Except Err Arr
  | a :: as, f :: fs => do
    let c ← a
    let cs ← sumArrs as fs
    return fun i => c i * f + cs i
  | _, _ => .ok (fun _ => 0)

/-- `norm and not equal_norm_ranges` (binned_functor.py:130-132, 143-145, 150-152, 156-158). -/
def sumSupports (cs : List Component) (n : Box) : Bool := cs.all (fun c => c.norm = n)

/-- `BinnedSumPDF` (models/binned_functor.py:39-163) with the fractions and the yield as determined by `_preprocess_init_sum`
(modelled for C25). Its norm is always its space (line 126). -/
def sumPdf (edges : List (List Rat)) (space : Box) (cs : List Component) (fracs : List Rat) (yield : Option Rat) : BPdf where
  edges := edges
  space := space
  norm := space
  yield := yield
  pdf := some (supportsNorm (sumSupports cs) (sumArrs (cs.map (·.pdf)) fracs))
  extPdf := some (supportsNorm (sumSupports cs) (sumArrs (cs.map (·.extPdf)) (cs.map (fun _ => 1))))
  counts := some (supportsNorm (sumSupports cs) (sumArrs (cs.map (·.counts)) (cs.map (fun _ => 1))))
  relCounts := some (supportsNorm (sumSupports cs) (sumArrs (cs.map (·.relCounts)) fracs))

end Zfit.BinPdf
