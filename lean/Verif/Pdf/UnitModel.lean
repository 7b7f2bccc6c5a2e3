import Verif.Phys.Model
import Verif.Phys.Voigt
import Verif.Dist.Model
import Verif.Num.PolyModel
import Verif.Num.BernModel
import Verif.Num.SimpsonModel
import Verif.Num.ExpModel

/-!
# Densities of the PDFs of one observable, with their parameters

The values and integrals are those of Verif/Phys, Verif/Num and Verif/Dist; here they are put together to `pdf(x, norm)`
(/repo/zfit/core/basepdf.py 479-485 `_norm_pdf`, 291-292 `_fallback_normalization`): the unnormalised value divided by the
integral over the norm range, here one interval.  Numbers are real.
-/

namespace Zfit.Units

open Zfit Zfit.Phys Zfit.Num

/-- A PDF with the values of its parameters (/repo/zfit/models/physics.py, polynomials.py, basic.py).  The polynomials are those with
scaling (`apply_scaling=True`, the default), over the space `[lo, hi]`; `n` of the Voigt profile is the number of points of the
numeric integral. -/
inductive Shape
  | crystalball (mu sigma alpha n : ℝ)
  | doubleCrystalball (mu sigma alphal nl alphar nr : ℝ)
  | generalizedCrystalball (mu sigmal alphal nl sigmar alphar nr : ℝ)
  | gaussexptail (mu sigma alpha : ℝ)
  | generalizedGaussexptail (mu sigmal alphal sigmar alphar : ℝ)
  | voigt (m sigma gamma : ℝ) (n : ℕ)
  | polynomial (f : Family) (coeffs : List ℝ) (lo hi : ℝ)
  | bernstein (coeffs : List ℝ) (lo hi : ℝ)

/-- `_unnormalized_pdf` (`_pdf`, physics.py 307-315, 426-444, 561-581, 783-790, 890-906; basic.py 327-340; polynomials.py 136-141, 970-980). -/
noncomputable def Shape.unnormalized : Shape → ℝ → Except Err ℝ
  | .crystalball mu sigma alpha n, x => .ok (Phys.crystalball x mu sigma alpha n)
  | .doubleCrystalball mu sigma al nl ar nr, x => .ok (Phys.doubleCrystalball x mu sigma al nl ar nr)
  | .generalizedCrystalball mu sl al nl sr ar nr, x => .ok (Phys.generalizedCrystalball x mu sl al nl sr ar nr)
  | .gaussexptail mu sigma alpha, x => .ok (Phys.gaussexptail x mu sigma alpha)
  | .generalizedGaussexptail mu sl al sr ar, x => .ok (Phys.generalizedGaussexptail x mu sl al sr ar)
  | .voigt m sigma gamma _, x => .ok (Phys.voigt x m sigma gamma)
  | .polynomial f coeffs lo hi, x => .ok (f.unnormalized ⟨lo, hi, true⟩ coeffs x)
  | .bernstein coeffs lo hi, x => bernUnnormalized ⟨lo, hi, true⟩ coeffs x

/-- The registered analytic integral, or the numeric one for the Voigt profile, which has none (physics.py 79-226, 637-714;
polynomials.py; integration.py 150-175). -/
noncomputable def Shape.integral : Shape → ℝ → ℝ → Except Err ℝ
  | .crystalball mu sigma alpha n, l, u => .ok (crystalballIntegral mu sigma alpha n l u)
  | .doubleCrystalball mu sigma al nl ar nr, l, u => .ok (doubleCrystalballIntegral mu sigma al nl ar nr l u)
  | .generalizedCrystalball mu sl al nl sr ar nr, l, u => .ok (generalizedCrystalballIntegral mu sl al nl sr ar nr l u)
  | .gaussexptail mu sigma alpha, l, u => .ok (gaussexptailIntegral mu sigma alpha l u)
  | .generalizedGaussexptail mu sl al sr ar, l, u => .ok (generalizedGaussexptailIntegral mu sl al sr ar l u)
  | .voigt m sigma gamma n, l, u => simpsonIntegrate (fun x => Phys.voigt x m sigma gamma) [(l, u)] n
  | .polynomial f coeffs lo hi, l, u => .ok (f.integral ⟨lo, hi, true⟩ coeffs l u)
  | .bernstein coeffs lo hi, l, u => bernIntegral ⟨lo, hi, true⟩ coeffs l u

/-- `pdf(x, norm)`. -/
noncomputable def Shape.pdf (s : Shape) (lower upper x : ℝ) : Except Err ℝ := do
  let v ← s.unnormalized x
  let i ← s.integral lower upper
  return v / i

/-- `integrate(limits, norm)` (/repo/zfit/core/basemodel.py `_norm_integrate`): divided by the integral over the norm range. -/
noncomputable def Shape.fraction (s : Shape) (normLower normUpper lower upper : ℝ) : Except Err ℝ := do
  let v ← s.integral lower upper
  let i ← s.integral normLower normUpper
  return v / i

end Zfit.Units
