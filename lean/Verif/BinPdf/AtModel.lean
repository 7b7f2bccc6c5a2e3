import Verif.BinPdf.PointModel
import Verif.Binned.Spec

/-!
# Model of the contents of a binned PDF for given bins, and of the pairing of bins in a binned loss

`BaseBinnedPDF.counts` and `rel_counts`, /repo/zfit/core/binnedpdf.py:1139-1169, 1258-1284, with `_convert_input_binned_x` (245-260), and
the pairing of bins in the four binned losses, /repo/zfit/_loss/binnedloss.py:308-316, 456-465, 661-680, 815-833.

The contents in the own bins of the PDF (the result of `_call_counts` or `_call_rel_counts`) are given: the PDFs of the library
(histogram.py:86-94, tobinned.py:111-112, 155-156, template.py:70-87) do not look at `x`.  Norm and parameters: see C107, C123.
-/

namespace Zfit.BinPdf

open Zfit Zfit.Bin

/-- What can be given as `x`: nothing, a binned space, binned data (or a histogram, which is converted to it, 248-249). -/
inductive XIn
  | none
  | space (s : BSpace)
  | data (h : Holder)

/-- `original_space` (binnedpdf.py:1145, 1262). -/
def XIn.bins (own : BSpace) : XIn → BSpace
  | .none => own
  | .space s => s
  | .data h => h.space

/-- `x.with_obs(self.space.obs)` (binnedpdf.py:1146, 1263); the result is not looked at. -/
def XIn.sorted (own : BSpace) : XIn → Except Err Unit
  | .none => (own.withObs own.obs).map fun _ => ()
  | .space s => (s.withObs own.obs).map fun _ => ()
  | .data h => (h.withObs own.obs).map fun _ => ()

/-- `counts(x)` or `rel_counts(x)` for binned `x` (binnedpdf.py:1142-1169, 1258-1284). -/
def countsFor (own : BSpace) (contents : NDArr) (x : XIn) : Except Err NDArr := do
  x.sorted own
  moveAxisObs own.obs (x.bins own).obs contents

/-- `counts(x)` or `rel_counts(x)` for unbinned `x` (binnedpdf.py:1149-1165, 1266-1281). -/
def countsOfEvents (own : BSpace) (contents : NDArr) (events : List (String → Rat)) : List Rat :=
  events.map (gatherAt own contents.get)

/-- Broadcasting of two shapes, last axis first (external, TensorFlow): missing axes count as 1, of two sizes that differ one has to be
1. -/
def broadcastRev : List Nat → List Nat → Except Err (List Nat)
  | [], t => .ok t
  | s, [] => .ok s
  | m :: s, n :: t => do
    let r ← broadcastRev s t
    if m = n ∨ n = 1 then return m :: r else if m = 1 then return n :: r else .error .invalidArgument

/-- Broadcasting of two shapes (external, TensorFlow). -/
def broadcast (s t : List Nat) : Except Err (List Nat) := (broadcastRev s.reverse t.reverse).map List.reverse

/-- An array read at an index of the shape it is broadcast to: the last axes of the index, 0 along the axes of size 1. -/
def bget (a : NDArr) (idx : List Nat) : Rat :=
  a.get ((a.shape.zip (idx.drop (idx.length - a.shape.length))).map fun p => if p.1 = 1 then 0 else p.2)

/-- The kinds of binned losses: `log_poisson_loss` refuses arrays of different shape (external: `ValueError`), the arithmetic of
`chi2_loss_calc` broadcasts. -/
inductive LossKind
  | nll
  | chi2
  deriving DecidableEq

/-- The value of a binned loss for one model and dataset, with the contribution `term` of an expected and an observed content in the bin
with that index (`poisson_loss_calc`, `chi2_loss_calc` with the bin's variance): `counts` or, if the loss is not extended, `rel_counts`
times the sum of the observed contents (binnedloss.py:308-316, 456-465, 661-680, 815-833). -/
noncomputable def pairLoss (kind : LossKind) (extended : Bool) (term : Rat → Rat → List Nat → ℝ) (own : BSpace) (contents : NDArr)
    (d : Holder) : Except Err ℝ := do
  let probs ← countsFor own contents (.data d)
  let scale : Rat := if extended then 1 else ((allIdx d.values.shape).map d.values.get).sum
  if kind = .nll ∧ probs.shape ≠ d.values.shape then .error .valueError
  else
    let shape ← broadcast probs.shape d.values.shape
    return ((allIdx shape).map fun i => term (bget probs i * scale) (bget d.values i) i).sum

/-! ### What they should be -/

/-- The bin with index `f x` along the axis named `x`: its limits for every observable. -/
def cellOf (s : BSpace) (f : String → Nat) (ob : String) : Option (Rat × Rat) :=
  (s.axes.find? fun a => a.name = ob).map fun a => (a.edges.getD (f ob) 0, a.edges.getD (f ob + 1) 0)

/-- The indices of the bins of a space. -/
def BSpace.HasBin (s : BSpace) (f : String → Nat) : Prop := ∀ a ∈ s.axes, f a.name < a.edges.length - 1

/-- The entries of an array are the contents `I` of the bins of the space. -/
def ContentsOf (I : (String → Option (Rat × Rat)) → Rat) (s : BSpace) (a : NDArr) : Prop :=
  a.shape = binShape s ∧ ∀ f, BSpace.HasBin s f → byName s a f = I (cellOf s f)

end Zfit.BinPdf
