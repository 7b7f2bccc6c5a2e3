import Verif.Param.Model

/-! Specification vocabulary for parameter values. -/

namespace Zfit.Par

open Zfit

/-- The lower limit is below the upper one (if both are given). -/
def Proper (lower upper : Option Rat) : Prop := ∀ l u, lower = some l → upper = some u → l < u

/-- The documented tolerance: a 1e-5 part of the range, at most 1e-7. -/
def tolerance (lower upper : Option Rat) : Rat :=
  match lower, upper with
  | some l, some u => min ((u - l) / 100000) (1 / 10000000)
  | _, _ => 1 / 10000000

/-- `v` is beyond a limit by at least the tolerance. -/
def Beyond (lower upper : Option Rat) (v : Rat) : Prop :=
  (∃ l, lower = some l ∧ v ≤ l - tolerance lower upper) ∨ (∃ u, upper = some u ∧ u + tolerance lower upper ≤ v)

/-- `w` is within the limits. -/
def Within (lower upper : Option Rat) (w : Rat) : Prop :=
  (∀ l, lower = some l → l ≤ w) ∧ (∀ u, upper = some u → w ≤ u)

/-- `w` is `v` clipped to the limits: the limit that `v` passes, else `v` itself. -/
def Clipped (lower upper : Option Rat) (v w : Rat) : Prop :=
  (Within lower upper v → w = v) ∧
  (∀ l, lower = some l → v ≤ l → w = l) ∧
  (∀ u, upper = some u → u ≤ v → w = u)

/-- All parameters of the store have proper limits. -/
def ProperStore (s : Store) : Prop := ∀ i, Proper (s i).lower (s i).upper

/-- Every value of the block is acceptable for its parameter. -/
def Acceptable (s : Store) (b : List (Nat × Rat)) : Prop :=
  ∀ iv ∈ b, ¬ Beyond (s iv.1).lower (s iv.1).upper iv.2

/-- The program sets parameters only temporarily, and every block names at most one parameter or has acceptable
values only. -/
def Temporary (s : Store) : Prog → Prop
  | .raise => True
  | .skip => True
  | .set _ => False
  | .assign _ => False
  | .seq a b => Temporary s a ∧ Temporary s b
  | .tryExcept a b => Temporary s a ∧ Temporary s b
  | .withSet b body => (b.length ≤ 1 ∨ Acceptable s b) ∧ Temporary s body

/-- The operation neither assigns unchecked nor changes limits. -/
def Op.checked : Op → Prop
  | .setValue _ => True
  | .randomize _ => True
  | .assign _ => False
  | .setLower _ => False
  | .setUpper _ => False
  | .withValue _ body => all body
where
  all : List Op → Prop
    | [] => True
    | o :: rest => o.checked ∧ all rest

end Zfit.Par
