import Verif.Common.Py
import Mathlib.Algebra.Order.Field.Rat
import Mathlib.Data.Nat.Notation

/-!
# Model of `update_integration_options`

/repo/zfit/core/basemodel.py:246-290.  The formulas for `'auto'` are arbitrary functions of the tolerance (and of the maximal
number of draws); they take logarithms of the tolerance, which raise `ValueError` for zero (`math.log10(0)`).
-/

namespace Zfit.Io

open Zfit

/-- A number of draws: a number or `'auto'`. -/
inductive Draws | auto | num (n : ℕ)
  deriving DecidableEq, Repr

/-- The options of a model. -/
structure IntegrationOptions where
  drawsPerDim : Draws
  mcSampler : ℕ
  maxDraws : ℕ
  tol : Rat
  drawsSimpson : Draws
  deriving DecidableEq, Repr

/-- The arguments; `none` leaves an option as it is. -/
structure OptionArgs where
  drawsPerDim : Option Draws := none
  mcSampler : Option ℕ := none
  maxDraws : Option ℕ := none
  tol : Option Rat := none
  drawsSimpson : Option Draws := none
  deriving DecidableEq, Repr

/-- The formulas for `'auto'` (276-281, 286-288). -/
structure AutoRules where
  perDim : Rat → ℕ → ℕ
  simpson : Rat → ℕ

/-- The options and how the call ends. -/
abbrev OptResult := IntegrationOptions × Option Err

/-- Lines 285-290. -/
def updateSimpson (r : AutoRules) (a : OptionArgs) (o : IntegrationOptions) : OptResult :=
  match a.drawsSimpson with
  | some .auto => if o.tol = 0 then (o, some .valueError) else ({ o with drawsSimpson := .num (r.simpson o.tol) }, none)
  | some (.num n) => ({ o with drawsSimpson := .num n }, none)
  | none => (o, none)

/-- Lines 275-283: `draws` is only assigned for `'auto'`, but used for every value. -/
def updatePerDim (r : AutoRules) (a : OptionArgs) (o : IntegrationOptions) : OptResult :=
  match a.drawsPerDim with
  | some .auto =>
    if o.tol = 0 then (o, some .valueError)
    else updateSimpson r a { o with drawsPerDim := .num (r.perDim o.tol o.maxDraws) }
  | some (.num _) => (o, some .unboundLocalError)
  | none => updateSimpson r a o

/-- `update_integration_options` (263-290). -/
def updateOptions (r : AutoRules) (a : OptionArgs) (o : IntegrationOptions) : OptResult :=
  let o := match a.drawsPerDim with | some d => { o with drawsPerDim := d } | none => o
  let o := match a.mcSampler with | some m => { o with mcSampler := m } | none => o
  let o := match a.maxDraws with | some m => { o with maxDraws := m } | none => o
  match a.tol with
  | some t => if t > 1 ∨ t < 0 then (o, some .valueError) else updatePerDim r a { o with tol := t }
  | none => updatePerDim r a o

end Zfit.Io
