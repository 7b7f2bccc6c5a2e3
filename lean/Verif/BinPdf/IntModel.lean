import Verif.Binned.Model

/-!
# Model of the integration of binned PDFs

`binned_rect_integration` and `cut_edges_and_bins`, /repo/zfit/core/binnedpdf.py:1344-1564, for counts over all axes.
Rational numbers instead of floats.
-/

namespace Zfit.BinPdf

open Zfit Zfit.Bin

/-- `tfp.stats.find_bins` with both outer intervals extended (external): how many inner edges are not above the value. -/
def extFindBin (edges : List Rat) (x : Rat) : Nat := (edges.tail.dropLast.takeWhile (fun e => decide (e ≤ x))).length

/-- What `cut_edges_and_bins` computes for one axis. -/
structure Cut where
  lowerBin : Nat
  size : Nat
  scaled : List Rat
  unscaled : List Rat
  deriving DecidableEq, Repr

/-- `cut_edges_and_bins` for one axis (binnedpdf.py:1503-1529); `lower ≤ upper`, as in every space. -/
def cutAxis (edges : List Rat) (lower upper : Rat) : Cut :=
  let lo := max lower (edges.headD 0)
  let hi := min upper (edges.getLastD 0)
  let lowerBin := extFindBin edges lo
  let upperBin := extFindBin edges hi + 1
  let size := upperBin - lowerBin
  let slice := (edges.drop lowerBin).take (size + 1)
  ⟨lowerBin, size, (slice.set 0 lo).set size hi, slice⟩

/-- The width of a bin: upper minus lower edge (binnedpdf.py:1407-1438). -/
def width (edges : List Rat) (k : Nat) : Rat := edges.getD (k + 1) 0 - edges.getD k 0

/-- `binned_rect_integration` (binnedpdf.py:1344-1446) for `counts` and `axis=None`: the counts in the cut, each times the
cut area over the uncut area of its bin, summed. -/
def rectIntegration (counts : NDArr) (edges : List (List Rat)) (limits : List (Rat × Rat)) : Rat :=
  let cuts := (edges.zip limits).map (fun p => cutAxis p.1 p.2.1 p.2.2)
  ((allIdx (cuts.map (·.size))).map (fun idx =>
    counts.get ((cuts.zip idx).map (fun p => p.1.lowerBin + p.2)) *
      (((cuts.zip idx).map (fun p => width p.1.scaled p.2)).prod /
        ((cuts.zip idx).map (fun p => width p.1.unscaled p.2)).prod))).sum

end Zfit.BinPdf
