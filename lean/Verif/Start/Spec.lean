import Verif.Start.Model
import Verif.Param.GraphSpec

/-! Specification of the start of a minimisation. -/

namespace Zfit.Start

open Zfit Zfit.Par

/-- The loss that is minimised if it is known from the argument; for a function of numbers, one new parameter for each. -/
def lossOf (loss : LArg) (n fresh : Nat) : LossO :=
  match loss with
  | .loss l => l
  | .result r => r.loss
  | .func => ⟨(List.range n).map (fun i => freshLeaf (fresh + i))⟩

/-- The parameter is one of those, or behind one of those, that the call is about. -/
def Behind (loss : LArg) (params : PArg) (fresh : Nat) (x : Leaf) : Prop :=
  match params with
  | .objs l => ∃ p ∈ l, Reach p x
  | .mapping l => ∃ p ∈ l, Reach p.1 x
  | .values l => x ∈ (lossOf loss l.length fresh).params
  | .array _ => False
  | .none =>
    match loss with
    | .loss l => x ∈ l.params
    | .result r => x ∈ r.params.map (·.1)
    | .func => False

/-- The call gives the value `q` for the parameter `x`. -/
def Given (loss : LArg) (params : PArg) (fresh : Nat) (x : Leaf) (q : ℚ) : Prop :=
  match params with
  | .mapping l => ∃ p, (p, some q) ∈ l ∧ p.leaf = x
  | .values l => ∃ i : Nat, (lossOf loss l.length fresh).free[i]? = some x ∧ l[i]? = some (some q)
  | _ => False

/-- The result that the minimisation starts from. -/
def usedInit (loss : LArg) (init : Option Res) : Option Res :=
  match loss with
  | .result r => some r
  | _ => init

/-- What holds for every loss, result and dictionary: no parameter twice, the parameters of a loss are independent, as are those of a result. -/
structure Regular (loss : LArg) (params : PArg) (init : Option Res) : Prop where
  loss_nodup : ∀ n fresh, (lossOf loss n fresh).params.Nodup
  loss_indep : ∀ n fresh, ∀ x ∈ (lossOf loss n fresh).params, x.kind = .indep
  mapping_nodup : ∀ l, params = .mapping l → (l.map (fun p => p.1.leaf)).Nodup
  init_nodup : ∀ r, usedInit loss init = some r → (r.params.map (·.1)).Nodup
  init_indep : ∀ r, usedInit loss init = some r → ∀ p ∈ r.params, p.1.kind = .indep

end Zfit.Start
