import Verif.Fun.Model

namespace Zfit.Fun

open Zfit

variable {R I : Type} [Add R] [Zero R] [Mul R] [One R]

mutual
/-- The value of what was written, at an event that has the value `x o` for the observable `o`: nothing if one of the functions
raises. -/
def denote (θ : String → R) (x : String → R) : Expr R I → Option R
  | .func s _ _ f => (f θ (s.obs.map x)).toOption
  | .scale p e => (denote θ x e).map (fun v => θ p * v)
  | .sum es => (denoteAll θ x es).map List.sum
  | .prod es => (denoteAll θ x es).map List.prod
/-- The values of several, if none raises. -/
def denoteAll (θ : String → R) (x : String → R) : List (Expr R I) → Option (List R)
  | [] => some []
  | e :: es => (denote θ x e).bind (fun v => (denoteAll θ x es).map (fun vs => v :: vs))
end

mutual
/-- The functions in an expression. -/
def leaves : Expr R I → List (Spc I × List (String × String) × ((String → R) → List R → Except Err R))
  | .func s ps _ f => [(s, ps, f)]
  | .scale _ e => leaves e
  | .sum es => leavesAll es
  | .prod es => leavesAll es
/-- The functions in several expressions. -/
def leavesAll : List (Expr R I) → List (Spc I × List (String × String) × ((String → R) → List R → Except Err R))
  | [] => []
  | e :: es => leaves e ++ leavesAll es
end

/-- A function of the user depends on the parameters it was given only. -/
def Honest (ps : List (String × String)) (f : (String → R) → List R → Except Err R) : Prop :=
  ∀ θ θ', (∀ kv ∈ ps, θ kv.2 = θ' kv.2) → f θ = f θ'

/-- The limits are set, for each observable to what `L` says. -/
def HasLimits (L : String → I) (s : Spc I) : Prop :=
  ∃ l, s.lims = some l ∧ (∀ o ∈ s.obs, dictGet l o = some (L o)) ∧ ∀ kv ∈ l, kv.1 ∈ s.obs ∧ kv.2 = L kv.1

end Zfit.Fun
