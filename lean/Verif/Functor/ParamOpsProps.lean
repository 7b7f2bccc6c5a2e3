import Verif.Functor.ParamOpsModel
import Mathlib.Tactic.Ring
import Mathlib.Algebra.BigOperators.Group.List.Basic

/-!
# C318: arithmetic with parameters
-/

namespace Zfit.Functor

open Zfit

variable {X : Type}

/-! ## Specification -/

/-- the number an operand stands for at the time of `env`: a parameter of any kind for its value -/
def StandsFor (env : Env) (o : V X) (v : Rat) : Prop :=
  (∃ k n f, o = .param k n f ∧ f env = v) ∨ o = .number v ∨ o = .tensor v

/-- the same object, except that a parameter may be of another kind -/
inductive UpToKind : V X → V X → Prop
  | same (o : V X) : UpToKind o o
  | param (k k' : PKind) (n : String) (f : Env → Rat) : UpToKind (.param k n f) (.param k' n f)

/-- an expression of operands, `+` and `*` with any parentheses -/
inductive Expr (X : Type)
  | leaf (o : V X)
  | op (o : Op) (a b : Expr X)

/-- what Python computes for it -/
def Expr.run (env : Env) : Expr X → Except Err (V X)
  | .leaf o => .ok o
  | .op o a b => do
    let x ← a.run env
    let y ← b.run env
    Functor.run env o x y

/-- the number it means -/
inductive Means (env : Env) : Expr X → Rat → Prop
  | leaf {o : V X} {v : Rat} (h : StandsFor env o v) : Means env (.leaf o) v
  | add {a b : Expr X} {v w : Rat} (ha : Means env a v) (hb : Means env b w) : Means env (.op .add a b) (v + w)
  | mul {a b : Expr X} {v w : Rat} (ha : Means env a v) (hb : Means env b w) : Means env (.op .mul a b) (v * w)

/-! ## Numbers and parameters -/

/-- C318: two operands that stand for numbers give a number or tensor with the sum or product of the numbers, for every
kind of parameter and in both orders. -/
theorem scalars_compute (env : Env) (op : Op) (a b : V X) (v w : Rat) (ha : StandsFor env a v)
    (hb : StandsFor env b w) :
    run env op a b = .ok (.number (op.app v w)) ∨ run env op a b = .ok (.tensor (op.app v w)) := by
  rcases ha with ⟨k, n, f, rfl, rfl⟩ | rfl | rfl <;> rcases hb with ⟨k', n', g, rfl, rfl⟩ | rfl | rfl <;>
    cases op <;> (try cases k) <;> (try cases k') <;>
    simp [run, method, isZfit, operation, known, addEnv, mulEnv, tensorOp, scalar?, Op.app]

/-- C318: an expression of parameters of any kinds, numbers and tensors, of any size, computes the number it means. -/
theorem expression_computes (env : Env) (e : Expr X) (v : Rat) (h : Means env e v) :
    ∃ o, e.run env = .ok o ∧ StandsFor env o v := by
  induction h with
  | leaf h => exact ⟨_, rfl, h⟩
  | add _ _ iha ihb =>
    obtain ⟨x, hx, sx⟩ := iha
    obtain ⟨y, hy, sy⟩ := ihb
    rcases scalars_compute env .add x y _ _ sx sy with h | h
    · exact ⟨_, by simpa [Expr.run, hx, hy, bind, Except.bind, Op.app] using h, .inr (.inl rfl)⟩
    · exact ⟨_, by simpa [Expr.run, hx, hy, bind, Except.bind, Op.app] using h, .inr (.inr rfl)⟩
  | mul _ _ iha ihb =>
    obtain ⟨x, hx, sx⟩ := iha
    obtain ⟨y, hy, sy⟩ := ihb
    rcases scalars_compute env .mul x y _ _ sx sy with h | h
    · exact ⟨_, by simpa [Expr.run, hx, hy, bind, Except.bind, Op.app] using h, .inr (.inl rfl)⟩
    · exact ⟨_, by simpa [Expr.run, hx, hy, bind, Except.bind, Op.app] using h, .inr (.inr rfl)⟩

/-- C318: whether a parameter is free, constant or composed makes no difference to the result or the error of an operator,
whatever the other operand is. -/
theorem kind_irrelevant (env : Env) (op : Op) (a a' b b' : V X) (ha : UpToKind a a') (hb : UpToKind b b') :
    run env op a b = run env op a' b' := by
  cases ha with
  | same =>
    cases hb with
    | same => rfl
    | param k k' n f =>
      cases op <;> cases k <;> cases k' <;> cases a <;> try rfl
      all_goals (rename_i k _ _; cases k <;> rfl)
  | param k k' n f =>
    cases hb with
    | same =>
      cases op <;> cases k <;> cases k' <;> cases b <;> try rfl
      all_goals (rename_i k _ _; cases k <;> rfl)
    | param l l' m g => cases op <;> cases k <;> cases k' <;> cases l <;> cases l' <;> rfl

/-! ## With models, the operators are those of the decision table -/

/-- an operand at the time of `env`, as C33 sees it -/
def seen (env : Env) : V X → Option (Obj X)
  | .param _ n v => some (.param n (v env))
  | .number v => some (.number v)
  | .tensor v => some (.number v)
  | .func f ps => some (.func (f env) ps)
  | .pdf i e => some (.pdf i e)
  | _ => none

/-- a result at the time of `env`, as C33 sees it -/
def seenRes (env : Env) : V X → Option (Res X)
  | .tensor v => some (.tensor v)
  | .func f ps => some (.func (f env) ps)
  | .productPDF ids => some (.productPDF ids)
  | .sumPDF ids => some (.sumPDF ids)
  | _ => none

/-- C318: if a function or a PDF is among the operands, `+` and `*` do what C33 says, whichever side it is on and whatever
kind of parameter the other operand is. -/
theorem with_models (env : Env) (a b : V X) (x y : Obj X) (ha : seen env a = some x) (hb : seen env b = some y)
    (h : scalar? env a = none ∨ scalar? env b = none) :
    (run env .add a b).map (seenRes env) = (add x y).map some ∧
    (run env .mul a b).map (seenRes env) = (multiply x y).map some := by
  cases a <;> cases b <;> simp only [seen, Option.some.injEq, reduceCtorEq] at ha hb <;> subst ha <;> subst hb <;>
    simp only [scalar?, reduceCtorEq, or_self] at h <;> constructor
  all_goals first
    | rfl
    | (rename_i k _ _ _ _; cases k <;> rfl)
    | (rename_i i e j e'; cases e <;> cases e' <;> rfl)

/-! ## Functions follow the parameters they are multiplied with -/

/-- the value at `x` of what an expression gave, when it is called at the time of `later` -/
def valueAt (later : Env) (x : X) : Except Err (V X) → Option Rat
  | .ok (.func f _) => some (f later x)
  | _ => none

/-- parameters given by kind, name and value -/
abbrev Params := List (PKind × String × (Env → Rat))

/-- `p1 * (p2 * (… * func))` -/
def fromRight (ps : Params) (f : Expr X) : Expr X :=
  ps.foldr (fun p e => .op .mul (.leaf (.param p.1 p.2.1 p.2.2)) e) f

/-- `p1 * p2 * … * func`, which is `((p1 * p2) * …) * func` -/
def fromLeft (p : PKind × String × (Env → Rat)) (ps : Params) (f : Expr X) : Expr X :=
  .op .mul (ps.foldl (fun e q => .op .mul e (.leaf (.param q.1 q.2.1 q.2.2))) (.leaf (.param p.1 p.2.1 p.2.2))) f

/-- C318: a function multiplied with one parameter after the other follows their values: called later, it gives its value
times the values the parameters have then. -/
theorem scaled_follows_parameters_partial (now : Env) (ps : Params) (f : Env → X → Rat) (qs : List (String × String)) :
    ∃ g rs, (fromRight ps (.leaf (.func f qs))).run now = .ok (.func g rs) ∧
      ∀ later x, g later x = (ps.map fun p => p.2.2 later).prod * f later x := by
  induction ps with
  | nil => exact ⟨f, qs, rfl, by simp⟩
  | cons p ps ih =>
    obtain ⟨g, rs, hg, hv⟩ := ih
    obtain ⟨k, n, v⟩ := p
    refine ⟨fun e x => v e * g e x, rs.foldl (fun d e => dictSet d e.1 e.2) [(n, n)], ?_, ?_⟩
    · simp only [fromRight, List.foldr_cons] at hg ⊢
      simp only [Expr.run, hg, bind, Except.bind]
      cases k <;> rfl
    · intro later x
      simp [hv, mul_assoc]

private theorem left_products (now : Env) (ps : Params) (e : Expr X) (v : Rat) (he : e.run now = .ok (.tensor v)) :
    (ps.foldl (fun e q => .op .mul e (.leaf (.param q.1 q.2.1 q.2.2))) e).run now
      = .ok (.tensor (v * (ps.map fun p => p.2.2 now).prod)) := by
  induction ps generalizing e v with
  | nil => simpa using he
  | cons p ps ih =>
    rw [List.foldl_cons, ih _ (v * p.2.2 now)]
    · simp [mul_assoc]
    · simp only [Expr.run, he, bind, Except.bind]
      rfl

/-- C318: written without parentheses, the product of two or more parameters and a function keeps the values the
parameters had when it was written, for ever, and has none of them among its parameters. -/
theorem unparenthesised_frozen (now : Env) (p q : PKind × String × (Env → Rat)) (ps : Params) (f : Env → X → Rat) :
    ∃ g, (fromLeft p (q :: ps) (.leaf (.func f []))).run now = .ok (.func g [("FIXED_autoparam", "FIXED_autoparam")]) ∧
      ∀ later x, g later x = ((p :: q :: ps).map fun r => r.2.2 now).prod * f later x := by
  obtain ⟨k, n, v⟩ := p
  obtain ⟨l, m, w⟩ := q
  have h := left_products (X := X) now ps
    (.op .mul (.leaf (.param k n v)) (.leaf (.param l m w))) (v now * w now)
    (by cases k <;> cases l <;> rfl)
  refine ⟨fun e x => (v now * w now * (ps.map fun r => r.2.2 now).prod) * f e x, ?_, ?_⟩
  · simp only [fromLeft, List.foldl_cons, Expr.run, h, bind, Except.bind]
    rfl
  · intro later x
    simp [mul_assoc]

/-- C318 fails as stated for functions: `a * b * func` does not follow `a`, although `a * (b * func)` does. -/
theorem product_follows_parameters_violated :
    ∃ (now later : Env) (a b : V Unit) (f : V Unit),
      valueAt later () (Expr.run now (.op .mul (.leaf a) (.op .mul (.leaf b) (.leaf f)))) = some 10 ∧
      valueAt later () (Expr.run now (.op .mul (.op .mul (.leaf a) (.leaf b)) (.leaf f))) = some 2 := by
  refine ⟨fun _ => 1, fun n => if n = "a" then 5 else 1, .param .free "a" (fun e => e "a"),
    .param .free "b" (fun e => e "b"), .func (fun _ _ => 2) [], ?_, ?_⟩ <;>
  simp [valueAt, Expr.run, run, method, isZfit, operation, known, mulEnv, scaleFunc, bind, Except.bind, tensorOp, scalar?,
    Op.app] <;> norm_num

/-! ## Concrete cases -/

/-- `2 * a + c * a` of a free and a composed parameter -/
example : Means (X := Unit) (fun _ => 3)
    (.op .add (.op .mul (.leaf (.number 2)) (.leaf (.param .free "a" fun e => e "a")))
      (.op .mul (.leaf (.param .composed "c" fun e => e "a" + 1)) (.leaf (.param .free "a" fun e => e "a")))) (2 * 3 + 4 * 3) :=
  .add (.mul (.leaf (.inr (.inl rfl))) (.leaf (.inl ⟨_, _, _, rfl, rfl⟩)))
    (.mul (.leaf (.inl ⟨_, _, _, rfl, by norm_num⟩)) (.leaf (.inl ⟨_, _, _, rfl, rfl⟩)))

/-- a constant parameter left of a PDF: the operands of `with_models` -/
example : seen (X := Unit) (fun _ => 3) (.param .constant "c" fun _ => 1) = some (.param "c" 1) ∧
    seen (X := Unit) (fun _ => 3) (.pdf 0 true) = some (.pdf 0 true) ∧
    scalar? (X := Unit) (fun _ => 3) (.pdf 0 true) = none := ⟨rfl, rfl, rfl⟩

end Zfit.Functor
