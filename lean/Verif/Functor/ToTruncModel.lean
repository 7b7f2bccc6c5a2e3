import Verif.Functor.TruncProps

/-! `BasePDF.to_truncated` (zfit/core/basepdf.py) and the defaults of `TruncatedPDF.__init__` (zfit/models/truncated.py), for one observable.
Names, labels and yields are not modelled here. -/

namespace Zfit.Functor

open Zfit MeasureTheory ENNReal

/-- The PDF that is truncated: its density without normalisation, its space and its `norm`. -/
structure TruncSource where
  f : ℝ → ℝ≥0∞
  space : ℝ × ℝ
  norm : ℝ × ℝ

/-- A `TruncatedPDF`: the wrapped density, its own space, its limits and its `norm`. -/
structure TruncPdf where
  f : ℝ → ℝ≥0∞
  space : ℝ × ℝ
  limits : List (ℝ × ℝ)
  norm : ℝ × ℝ

/-- `TruncatedPDF(pdf, limits, obs, norm=norm)` (truncated.py:95-200): `obs` is by default the space of the PDF, `norm` by default the new space
(`_check_init_norm`, basepdf.py:179-188); `check_limits` (25-59). -/
noncomputable def makeTruncated (p : TruncSource) (limits : List (ℝ × ℝ)) (obs norm : Option (ℝ × ℝ)) : Except Err TruncPdf := do
  let space := obs.getD p.space
  let limits ← checkLimits limits
  return ⟨p.f, space, limits, norm.getD space⟩

/-- `to_truncated` (basepdf.py:1110-1123). -/
noncomputable def toTruncated (p : TruncSource) (limits : Option (List (ℝ × ℝ))) (obs norm : Option (ℝ × ℝ)) : Except Err TruncPdf :=
  let lims := limits.getD [obs.getD p.space]
  let newObs := obs.getD p.space
  let newNorm := norm.getD p.norm
  makeTruncated p lims (some newObs) (some newNorm)

/-- The normalisation of a truncated PDF: `_integrate` for its space (truncated.py:221-236), the integral of the truncated density for any other
range.  The integrals of the wrapped PDF are exact. -/
noncomputable def TruncPdf.normValue (t : TruncPdf) : ℝ≥0∞ :=
  match truncIntegrate t.space t.limits (fun l => .ok (∫⁻ x in Set.Icc l.1 l.2, t.f x)) t.norm with
  | .ok v => v
  | .error _ => ∫⁻ x in Set.Icc t.norm.1 t.norm.2, truncated t.limits t.f x

/-- `pdf(x)` of a truncated PDF: the truncated density (`_unnormalized_pdf`, truncated.py:206-219) over the normalisation. -/
noncomputable def TruncPdf.pdf (t : TruncPdf) (x : ℝ) : ℝ≥0∞ := truncated t.limits t.f x / t.normValue

end Zfit.Functor
