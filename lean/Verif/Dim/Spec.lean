import Verif.Dim.Model
import Mathlib.Logic.Relation

/-! Specification vocabulary for grouping by observables and for overlaps. -/

namespace Zfit.Dim

open Zfit

/-- The two objects share an observable. -/
def Share (a b : Dimensional) : Prop := ∃ x, x ∈ a.obs ∧ x ∈ b.obs

/-- There is a chain from `a` to `b` through objects of `dims`, neighbours sharing an observable. -/
def Chained (dims : List Dimensional) : Dimensional → Dimensional → Prop :=
  Relation.ReflTransGen (fun a b => a ∈ dims ∧ b ∈ dims ∧ Share a b)

/-- No object joins earlier objects that are not joined already: whenever an object shares observables with two earlier
ones, these are chained through objects before it. -/
def NoBridge (dims : List Dimensional) : Prop :=
  ∀ pre d post, dims = pre ++ d :: post → ∀ a ∈ pre, ∀ b ∈ pre, Share a d → Share b d → Chained pre a b

/-- The intervals overlap by more than a point. -/
def Overlap (a b : Rat × Rat) : Prop := max a.1 b.1 < min a.2 b.2

end Zfit.Dim
