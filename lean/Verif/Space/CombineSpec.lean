import Verif.Space.Combine
import Verif.Space.Spec

/-! Specification vocabulary for equality of spaces and `combine_spaces`. -/

namespace Zfit.Sp

open Zfit Zfit.Coord

/-- The limits of the observable `x` in the space `s`, read off its observables and its limits. -/
def limOf (s : Space) (x : String) : Rat × Rat :=
  match s.coords.obs, s.rectLimits with
  | some o, .ok (lo, hi) => (dictGet (o.zip (lo.zip hi)) x).getD (0, 0)
  | _, _ => (0, 0)

/-- Both bounds agree within the tolerance of the code (`1e-8`, exclusive). -/
def closeLim (a b : Rat × Rat) : Prop := |a.1 - b.1| < 1 / 100000000 ∧ |a.2 - b.2| < 1 / 100000000

instance (a b : Rat × Rat) : Decidable (closeLim a b) := by unfold closeLim; infer_instance

/-- The number of spaces with the observable `x`. -/
def occurrences (spaces : List Space) (x : String) : Nat := (spaces.filter (fun s => decide (x ∈ obsOf s))).length

/-- A space the user can hold: created with distinct observables (and possibly axes) and rectangular limits, then
reordered by any chain of requests that keeps the observables (as in C01). -/
def Created (s : Space) : Prop :=
  ∃ (o : List String) (a : Option (List Int)) (lower upper : List Rat) (reqs : List SReq) (s0 : Space),
    o.Nodup ∧ (∀ l, a = some l → l.Nodup) ∧ Space.make (some o) a (.rect lower upper) = .ok s0 ∧
    (∀ r ∈ reqs, r.Distinct ∧ ¬ r.DropsObs) ∧ MeaningfulChain s0 reqs ∧ s0.applyAll reqs = .ok s

/-- All spaces with the observable `c` give it the same limits, within the tolerance. -/
def AgreeOn (spaces : List Space) (c : String) : Prop :=
  ∀ s ∈ spaces, ∀ t ∈ spaces, c ∈ obsOf s → c ∈ obsOf t → closeLim (limOf s c) (limOf t c)

end Zfit.Sp
