import Verif.Binned.Model
import Mathlib.Analysis.SpecialFunctions.Log.ENNRealLog

/-!
# Model of evaluating a binned PDF at unbinned points

`BaseBinnedPDF.pdf`, `ext_pdf` and `log_pdf`, /repo/zfit/core/binnedpdf.py:290-343, 379-435, 462-530, for unbinned data.
The values in the bins (the result of `_call_pdf`) are given; densities are extended non-negative reals.
The data's columns have been put into the order of the space's observables (`with_obs`, line 323, see C16).
-/

namespace Zfit.BinPdf

open Zfit Zfit.Bin

/-- `unbinned_to_binindex(..., flow=True)` for one point (core/binning.py:103-115): outside is NaN and becomes 0, bin `k`
becomes `k + 1`. -/
def flowIndex (space : BSpace) (p : String → Rat) : List Nat :=
  space.axes.map (fun a => match tfpFindBin a.edges (p a.name) with
    | none => 0
    | some k => k + 1)

/-- `pad(values, ones, mode="constant")` (binnedpdf.py:335-339) read at one index: one more cell on each side of every axis, filled
with zeros. -/
def padded {α : Type*} [Zero α] (shape : List Nat) (values : List Nat → α) (idx : List Nat) : α :=
  if (idx.zip shape).all (fun p => decide (1 ≤ p.1 ∧ p.1 ≤ p.2)) then values (idx.map (· - 1)) else 0

/-- The number of bins of every axis. -/
def binShape (space : BSpace) : List Nat := space.axes.map (fun a => a.edges.length - 1)

/-- `gather_nd(padded_values, binindices)` (binnedpdf.py:328-340) for one point. -/
def gatherAt {α : Type*} [Zero α] (space : BSpace) (values : List Nat → α) (p : String → Rat) : α :=
  padded (binShape space) values (flowIndex space p)

/-- `pdf` and `ext_pdf` at one point (binnedpdf.py:318-343, 410-435). -/
def pdfAt (space : BSpace) (values : List Nat → ENNReal) (p : String → Rat) : ENNReal := gatherAt space values p

/-- `log_pdf` at one point (binnedpdf.py:491-530): the logarithm of the values in the bins is padded. -/
noncomputable def logPdfAt (space : BSpace) (values : List Nat → ENNReal) (p : String → Rat) : EReal :=
  gatherAt space (fun idx => (values idx).log) p

end Zfit.BinPdf
