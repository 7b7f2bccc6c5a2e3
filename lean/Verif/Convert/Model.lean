import Verif.BinPdf.HistModel
import Verif.BinPdf.PointModel

/-!
# Model of binning unbinned PDFs and unbinning binned PDFs

`BinnedFromUnbinnedPDF`, /repo/zfit/models/tobinned.py:26-214, and `UnbinnedFromBinnedPDF`,
/repo/zfit/models/unbinnedpdf.py:17-145, with the parts of `BasePDF` (/repo/zfit/core/basepdf.py) and `BaseModel`
(/repo/zfit/core/basemodel.py) that call its hooks.

Simplifications: rational numbers; a space is one box; the observables of the wrapped and of the wrapping PDF are in the same order;
the three ways of mapping over the bins (`vectorized_map`, `map_fn`, Python's `map`; tobinned.py:136-147) are one.
-/

namespace Zfit.Convert

open Zfit Zfit.Bin Zfit.BinPdf

/-- What `BinnedFromUnbinnedPDF` uses of the unbinned PDF: `integrate(limits, norm=False)` and the yield.
`normalization(norm)` is the integral (basepdf.py:291-292) and `ext_integrate` the integral times the yield (basepdf.py:617-655). -/
structure UPdf where
  integral : Box → Rat
  yield : Option Rat

/-- `znp.stack([reshape(m, [-1]) for m in meshgrid(*lists, indexing="ij")], axis=-1)` (tobinned.py:116-124, unbinnedpdf.py:127-134):
one row per combination, the last list running fastest. -/
def meshFlat (lists : List (List Rat)) : List (List Rat) :=
  (allIdx (lists.map List.length)).map (fun idx => (lists.zip idx).map (fun p => p.1.getD p.2 0))

/-- The limits that are integrated (tobinned.py:114-124, 133): lower ends `edge[:-1]` and upper ends `edge[1:]`. -/
def binLimits (edges : List (List Rat)) : List Box :=
  ((meshFlat (edges.map List.dropLast)).zip (meshFlat (edges.map List.tail))).map (fun p => p.1.zip p.2)

/-- The position of an index in a flattened (row-major) array. -/
def flatPos : List Nat → List Nat → Nat
  | _ :: shape, i :: idx => i * shape.prod + flatPos shape idx
  | _, _ => 0

/-- `znp.reshape(values, shape)` (tobinned.py:148, 206). -/
def reshape (shape : List Nat) (values : List Rat) : Arr := fun idx => values.getD (flatPos shape idx) 0

/-- The values of all the bins for `integrate_one` (tobinned.py:127-148, 172-206). -/
def binValues (edges : List (List Rat)) (integrateOne : Box → Rat) : Arr :=
  reshape (edges.map (fun e => e.length - 1)) ((binLimits edges).map integrateOne)

/-- `if norm: values /= pdf.normalization(norm)` (tobinned.py:149-150, 209-210). -/
def overNorm (u : UPdf) (norm : Option Box) (c : Arr) : Arr :=
  match norm with
  | none => c
  | some n => fun idx => c idx / u.integral n

/-- The values of `_counts` before the normalisation (tobinned.py:172-208): with the yield of the PDF if it is extended, otherwise with
`self.get_yield()`. -/
def rawCounts (u : UPdf) (edges : List (List Rat)) (extended : Option Rat) : Arr :=
  match u.yield with
  | some y => binValues edges (fun b => u.integral b * y)
  | none => fun idx => binValues edges u.integral idx * extended.getD 0

/-- `BinnedFromUnbinnedPDF(pdf, space, extended=extended, norm=norm)` (tobinned.py:27-211). `_counts` is decorated with
`supports(norm="space")`. `get_yield()` is always there in `_counts`, as `counts` checks it first. -/
def binnedPdf (u : UPdf) (edges : List (List Rat)) (space norm : Box) (extended : Option Rat) : BPdf where
  edges := edges
  space := space
  norm := norm
  yield := match u.yield, extended with
    | some _, some y => some y
    | some y, none => some y
    | none, e => e
  relCounts := some (fun n => .ok (overNorm u n (binValues edges u.integral)))
  counts := some (fun n => supportsNorm (fun b => b = space)
    (.ok (overNorm u n (rawCounts u edges extended))) n)

/-- The argument `extended` of `UnbinnedFromBinnedPDF`. -/
inductive ExtArg
  | none
  | no
  | given (y : Rat)

/-- An `UnbinnedFromBinnedPDF`: the wrapped binned PDF and its binned space; own space, norm and yield. -/
structure Unb where
  b : BPdf
  bspace : BSpace
  space : Box
  norm : Box
  yield : Option Rat

/-- `UnbinnedFromBinnedPDF(pdf, obs, extended=extended, norm=norm)` (unbinnedpdf.py:65-74). -/
def unbinned (b : BPdf) (bspace : BSpace) (obs : Option Box) (extended : ExtArg) (norm : Option Box) : Unb where
  b := b
  bspace := bspace
  space := obs.getD b.space
  norm := norm.getD (obs.getD b.space)
  yield := match extended with
    | .none => b.yield
    | .no => Option.none
    | .given y => some y

/-- `binned_norm = norm if norm is False else self._binned_norm` (unbinnedpdf.py:82, 96, 106). -/
def Unb.binnedNorm (u : Unb) : Option Box → Option Box
  | none => none
  | some _ => some u.b.norm

/-- The hook, decorated with `supports(norm="norm")` (unbinnedpdf.py:76, 89, 104; core/space.py:3245-3294); otherwise the hook without
norm over the normalisation (basepdf.py:479-485, 364-371, basemodel.py:405-412). -/
def Unb.normed (u : Unb) (hook : Option Box → M Rat) (normalization : Box → M Rat) : Option Box → M Rat
  | none => hook none
  | some n =>
    if n = u.norm then hook (some n)
    else (hook none).bind' (fun v => (normalization n).bind' (fun z => some (.ok (v / z))))

/-- `_integrate(limits, norm)` (unbinnedpdf.py:104-107). -/
def Unb.integrateHook (u : Unb) (fuel : Nat) (limits : Box) (norm : Option Box) : M Rat :=
  u.b.runN fuel (.integrate [limits] (u.binnedNorm norm))

/-- `normalization(norm)` (basepdf.py:278-292): the integral with `norm=False`. -/
def Unb.normalization (u : Unb) (fuel : Nat) (n : Box) : M Rat := u.integrateHook fuel n none

/-- `integrate(limits, norm)` (basemodel.py:388-412). `norm=None` is the PDF's own norm (basepdf.py:190-193). -/
def Unb.integrate (u : Unb) (fuel : Nat) (limits : Box) (norm : Option Box) : M Rat :=
  u.normed (u.integrateHook fuel limits) (u.normalization fuel) norm

/-- `_pdf(x, norm)` (unbinnedpdf.py:76-87): the content of the bin of `x`, zero outside. -/
def Unb.pdfHook (u : Unb) (fuel : Nat) (x : String → Rat) (norm : Option Box) : M Rat :=
  (u.b.runA fuel (.pdf (u.binnedNorm norm))).bind' (fun v => some (.ok (gatherAt u.bspace v x)))

/-- `pdf(x, norm)` (basepdf.py:462-492). -/
def Unb.pdf (u : Unb) (fuel : Nat) (x : String → Rat) (norm : Option Box) : M Rat :=
  u.normed (u.pdfHook fuel x) (u.normalization fuel) norm

/-- `_ext_pdf(x, norm)` (unbinnedpdf.py:89-102): with `ext_pdf` of the binned PDF, which raises if that is not extended
(core/binnedpdf.py:407-408). -/
def Unb.extPdfHook (u : Unb) (fuel : Nat) (x : String → Rat) (norm : Option Box) : M Rat :=
  (u.b.extPdfM fuel (some (u.binnedNorm norm))).bind' (fun v => some (.ok (gatherAt u.bspace v x)))

/-- `ext_pdf(x, norm)` (basepdf.py:349-371). -/
def Unb.extPdf (u : Unb) (fuel : Nat) (x : String → Rat) (norm : Option Box) : M Rat :=
  match u.yield with
  | none => some (.error .notExtended)
  | some _ => u.normed (u.extPdfHook fuel x) (u.normalization fuel) norm

/-- `ext_integrate(limits, norm)` (basepdf.py:646-655): the integral times the own yield; the hook `_ext_integrate`
(unbinnedpdf.py:109-112) is never called. -/
def Unb.extIntegrate (u : Unb) (fuel : Nat) (limits : Box) (norm : Option Box) : M Rat :=
  match u.yield with
  | none => some (.error .notExtended)
  | some y => (u.integrate fuel limits norm).bind' (fun v => some (.ok (v * y)))

/-- `znp.asarray(counts, znp.int32)` (unbinnedpdf.py:137): towards zero. -/
def toInt (c : Rat) : Nat := (Int.tdiv c.num c.den).toNat

/-- `tf.repeat(rows, counts, axis=0)` (unbinnedpdf.py:138-139). -/
def repeatRows {α : Type} (rows : List α) (counts : List Nat) : List α :=
  (rows.zip counts).flatMap (fun p => List.replicate p.2 p.1)

/-- `prng.uniform(minval, maxval)` (unbinnedpdf.py:140-145): the given numbers of `[0, 1)` moved into the range. -/
def uniformIn (r : List Rat) (lower upper : List Rat) : List Rat :=
  (r.zip (lower.zip upper)).map (fun p => p.2.1 + p.1 * (p.2.2 - p.2.1))

/-- `_sample(n, limits)` (unbinnedpdf.py:114-145) for the counts the binned PDF has drawn; `limits` is not used. `rnd k` are the
random numbers of the `k`-th event. -/
def sampleHook (edges : List (List Rat)) (counts : Arr) (rnd : Nat → List Rat) : List (List Rat) :=
  let c := (allIdx (edges.map (fun e => e.length - 1))).map (fun idx => toInt (counts idx))
  let lower := repeatRows (meshFlat (edges.map List.dropLast)) c
  let upper := repeatRows (meshFlat (edges.map List.tail)) c
  (List.range lower.length).map (fun k => uniformIn (rnd k) (lower.getD k []) (upper.getD k []))

/-- An event is inside a box. -/
def inBox (limits : Box) (row : List Rat) : Bool := (limits.zip row).all (fun p => decide (p.1.1 ≤ p.2 ∧ p.2 ≤ p.1.2))

/-- `sample(n, limits)` (basemodel.py:1182-1198): `Data.from_tensor` with the limits as space drops the events outside. `limits=None`
is the space of the PDF. -/
def Unb.sample (u : Unb) (counts : Arr) (rnd : Nat → List Rat) (limits : Option Box) : List (List Rat) :=
  (sampleHook u.b.edges counts rnd).filter (inBox (limits.getD u.space))

end Zfit.Convert
