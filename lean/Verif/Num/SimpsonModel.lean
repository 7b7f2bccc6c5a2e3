import Verif.Common.Py
import Mathlib.Data.Real.Basic

/-!
# Model of Simpson integration

/repo/zfit/core/integration.py: `simpson` (127-147), `simpson_integrate` (150-175).  Real numbers instead of floats; the
function acts on each point of the grid (vectorised in the code); limits are finite and one-dimensional.
-/

namespace Zfit.Num

open Zfit

/-- The weights (integration.py:142-145). -/
def weights (n : ℕ) : List ℝ := [1] ++ (List.replicate ((n - 3) / 2) [(4 : ℝ), 2]).flatten ++ [4, 1]

/-- The grid (integration.py:138-141). -/
noncomputable def grid (lower dx : ℝ) (n : ℕ) : List ℝ := (List.range n).map fun (i : ℕ) => lower + dx * (i : ℝ)

/-- `simpson` (integration.py:127-147): the assertions about the number of points, then the weighted sum. -/
noncomputable def simpson (f : ℝ → ℝ) (lower upper : ℝ) (n : ℕ) : Except Err ℝ :=
  if n < 3 then .error .invalidArgument
  else if n % 2 ≠ 1 then .error .invalidArgument
  else
    let dx := (upper - lower) / ((n : ℝ) - 1)
    .ok ((List.zipWith (· * ·) ((grid lower dx n).map f) (weights n)).sum * dx / 3)

/-- The number of points used (integration.py:152-153). -/
def sanitize (n : ℕ) : ℕ := n + (n % 2 + 1)

/-- `simpson_integrate` (integration.py:150-175) over the pieces of the limits. -/
noncomputable def simpsonIntegrate (f : ℝ → ℝ) (pieces : List (ℝ × ℝ)) (n : ℕ) : Except Err ℝ := do
  let integrals ← pieces.mapM fun p => simpson f p.1 p.2 (sanitize n)
  .ok integrals.sum

end Zfit.Num
