import Verif.Param.Graph

/-! Specification vocabulary for parameter dependencies. -/

namespace Zfit.Par

open Zfit

/-- `x` is an independent parameter that the parameter depends on (or is), through any nesting. -/
inductive Reach : Par → Leaf → Prop
  | self {l : Leaf} {deps : List Par} : l.kind = .indep → Reach (.node l deps) l
  | dep {l x : Leaf} {deps : List Par} {d : Par} : l.kind ≠ .indep → d ∈ deps → Reach d x → Reach (.node l deps) x

/-- The parameter is one of the model itself or of one of its daughters, in any depth. -/
inductive Direct : Mod → Par → Prop
  | own {ps : List Par} {y : Option Par} {subs : List Mod} {p : Par} : p ∈ ps → Direct (.node ps y subs) p
  | sub {ps : List Par} {y : Option Par} {subs : List Mod} {m : Mod} {p : Par} :
      m ∈ subs → Direct m p → Direct (.node ps y subs) p

/-- The yield of a model. -/
def Mod.yld : Mod → Option Par
  | .node _ y _ => y

/-- What a parameter contributes: with `extract_independent=True` the independent parameters behind it, with `None`
these and itself, with `False` only itself. -/
def Contributes (extract : Option Bool) (p : Par) (x : Leaf) : Prop :=
  match extract with
  | some true => Reach p x
  | none => x = p.leaf ∨ Reach p x
  | some false => x = p.leaf

/-- Passes the filter on `floating`. -/
def Passes (floating : Option Bool) (x : Leaf) : Prop := ∀ b, floating = some b → x.floating = b

/-- The parameters that the flags select from a model. -/
def Selected (m : Mod) (isYield : Option Bool) (p : Par) : Prop :=
  (isYield ≠ some true ∧ Direct m p) ∨ (isYield ≠ some false ∧ m.yld = some p)

end Zfit.Par
