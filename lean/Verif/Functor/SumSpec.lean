import Verif.Functor.SumModel
import Verif.Pdf.Spec

namespace Zfit.Functor

open Zfit Zfit.Pdf

variable {S X P : Type}

/-- The observables of all the daughters are those of the sum (the given ones or those of the first daughter), in any
order. -/
def ObsAgree (obs : Option (List String)) (pdfs : List (Comp S)) : Prop :=
  ∀ q ∈ pdfs, ∀ o, o ∈ q.obs ↔ o ∈ obs.getD (pdfs.head?.elim [] (·.obs))

/-- The daughter's density and integrals, known to be what its methods compute. -/
structure Known (X P : Type) where
  d : Daughter X P
  f : X → ℝ
  μ : P → ℝ

/-- The daughter works and is normalisable over its own range. -/
structure Known.Ok (k : Known X P) : Prop where
  honest : Honest k.d.impl k.f k.μ
  log : k.d.impl.logPdf = none ∨ ∀ x, 0 < k.f x
  norm : 0 < total k.μ k.d.norm

/-- The normalised density of a daughter. -/
noncomputable def Known.density (k : Known X P) (x : X) : ℝ := k.f x / total k.μ k.d.norm

/-- The integral of the normalised density of a daughter over a piece. -/
noncomputable def Known.mass (k : Known X P) (p : P) : ℝ := k.μ p / total k.μ k.d.norm

/-- `Σ frac_i · v_i`. -/
noncomputable def mix (fracs : List ℝ) (vs : List ℝ) : ℝ := ((vs.zip fracs).map (fun q => q.1 * q.2)).sum

end Zfit.Functor
