import Verif.Functor.OpsModel
import Verif.Common.Except

namespace Zfit.Functor

open Zfit

variable {X : Type}

/-! ## What the operands are -/

/-- a parameter or number, with its value -/
def IsScalar (o : Obj X) (v : Rat) : Prop := (∃ n, o = .param n v) ∨ o = .number v

def IsFunc (o : Obj X) (f : X → Rat) : Prop := ∃ ps, o = .func f ps

def IsPdf (o : Obj X) (i : Nat) (ext : Bool) : Prop := o = .pdf i ext

/-- usable as operand: a model or something convertible to a parameter -/
def Operand (o : Obj X) : Prop := o ≠ .callable ∧ o ≠ .other

/-- the function a result is, if it is one -/
def Res.value? : Res X → Option (X → Rat)
  | .func f _ => some f
  | _ => none

/-! ## C33: multiplication -/

/-- C33: the products that exist, and their values.  The order of a function and a parameter does not matter. -/
theorem multiply_builds (a b : Obj X) :
    (∀ v w, IsScalar a v → IsScalar b w → multiply a b = .ok (.tensor (v * w))) ∧
    (∀ v f, IsScalar a v → IsFunc b f →
      (multiply a b).map Res.value? = .ok (some (fun x => v * f x)) ∧ multiply b a = multiply a b) ∧
    (∀ f g, IsFunc a f → IsFunc b g → (multiply a b).map Res.value? = .ok (some (fun x => f x * g x))) ∧
    (∀ i e j e', IsPdf a i e → IsPdf b j e' → ¬ (e = false ∧ e' = true) → multiply a b = .ok (.productPDF [i, j])) := by
  refine ⟨?_, ?_, ?_, ?_⟩
  · rintro v w (⟨n, rfl⟩ | rfl) (⟨m, rfl⟩ | rfl) <;> rfl
  · rintro v f (⟨n, rfl⟩ | rfl) ⟨ps, rfl⟩ <;> exact ⟨rfl, rfl⟩
  · rintro f g ⟨ps, rfl⟩ ⟨qs, rfl⟩
    rfl
  · rintro i e j e' rfl rfl h
    cases e <;> cases e' <;> first | rfl | exact absurd ⟨rfl, rfl⟩ h

/-- C33: a product exists for no other operands, and which error is raised. -/
theorem multiply_rejects (a b : Obj X) :
    ((∃ r, multiply a b = .ok r) ↔
      (∃ v w, IsScalar a v ∧ IsScalar b w) ∨ (∃ v f, IsScalar a v ∧ IsFunc b f) ∨ (∃ f v, IsFunc a f ∧ IsScalar b v) ∨
      (∃ f g, IsFunc a f ∧ IsFunc b g) ∨
      (∃ i e j e', IsPdf a i e ∧ IsPdf b j e' ∧ ¬ (e = false ∧ e' = true))) ∧
    (∀ i j, IsPdf a i false → IsPdf b j true → multiply a b = .error .intentionAmbiguous) ∧
    (∀ v j e, IsScalar a v → IsPdf b j e → multiply a b = .error .breakingApiChange) ∧
    (∀ v j e, IsPdf a j e → IsScalar b v → multiply a b = .error .modelIncompatible) ∧
    (∀ f j e, IsFunc a f ∧ IsPdf b j e ∨ IsPdf a j e ∧ IsFunc b f → multiply a b = .error .modelIncompatible) ∧
    (a = .other → multiply a b = .error .typeError) ∧ (a = .callable → multiply a b = .error .valueError) ∧
    (Operand a → b = .other → multiply a b = .error .typeError) ∧
    (Operand a → b = .callable → multiply a b = .error .valueError) := by
  refine ⟨?_, ?_, ?_, ?_, ?_, ?_, ?_, ?_, ?_⟩
  · cases a <;> cases b <;>
      simp [multiply, toKnown, mulKnown, mulPdfPdf, bind, Except.bind, IsScalar, IsFunc, IsPdf]
    rename_i i e j e'
    cases e <;> cases e' <;> simp
  · rintro i j rfl rfl
    rfl
  · rintro v j e (⟨n, rfl⟩ | rfl) rfl <;> rfl
  · rintro v j e rfl (⟨n, rfl⟩ | rfl) <;> rfl
  · rintro f j e (⟨⟨ps, rfl⟩, rfl⟩ | ⟨rfl, ⟨ps, rfl⟩⟩) <;> rfl
  · rintro rfl; rfl
  · rintro rfl; rfl
  · rintro ⟨h1, h2⟩ rfl
    cases a <;> first | rfl | exact absurd rfl h1 | exact absurd rfl h2
  · rintro ⟨h1, h2⟩ rfl
    cases a <;> first | rfl | exact absurd rfl h1 | exact absurd rfl h2

/-! ## C33: addition -/

/-- C33: the sums that exist: of two functions, and of two PDFs exactly if both are extended; and which error is raised
otherwise. -/
theorem add_decides (a b : Obj X) :
    (∀ f g, IsFunc a f → IsFunc b g → (add a b).map Res.value? = .ok (some (fun x => f x + g x))) ∧
    (∀ i e j e', IsPdf a i e → IsPdf b j e' →
      add a b = if e = true ∧ e' = true then .ok (.sumPDF [i, j]) else .error .breakingApiChange) ∧
    ((∃ r, add a b = .ok r) ↔
      (∃ f g, IsFunc a f ∧ IsFunc b g) ∨ (∃ i j, IsPdf a i true ∧ IsPdf b j true)) ∧
    (∀ v f, IsScalar a v ∧ IsFunc b f ∨ IsFunc a f ∧ IsScalar b v → add a b = .error .notImplementedError) ∧
    (∀ f j e, IsFunc a f ∧ IsPdf b j e ∨ IsPdf a j e ∧ IsFunc b f → add a b = .error .typeError) ∧
    (∀ v w, IsScalar a v → IsScalar b w → add a b = .error .functionNotImplemented) ∧
    (∀ v j e, IsScalar a v ∧ IsPdf b j e ∨ IsPdf a j e ∧ IsScalar b v → add a b = .error .functionNotImplemented) ∧
    (Operand a → b = .other → add a b = .error .typeError) ∧ (a = .other → add a b = .error .typeError) := by
  refine ⟨?_, ?_, ?_, ?_, ?_, ?_, ?_, ?_, ?_⟩
  · rintro f g ⟨ps, rfl⟩ ⟨qs, rfl⟩
    rfl
  · rintro i e j e' rfl rfl
    cases e <;> cases e' <;> rfl
  · cases a <;> cases b <;>
      simp [add, toKnown, addKnown, addPdfPdf, bind, Except.bind, IsFunc, IsPdf]
    rename_i i e j e'
    cases e <;> cases e' <;> simp
  · rintro v f (⟨⟨n, rfl⟩ | rfl, ⟨ps, rfl⟩⟩ | ⟨⟨ps, rfl⟩, ⟨n, rfl⟩ | rfl⟩) <;> rfl
  · rintro f j e (⟨⟨ps, rfl⟩, rfl⟩ | ⟨rfl, ⟨ps, rfl⟩⟩) <;> rfl
  · rintro v w (⟨n, rfl⟩ | rfl) (⟨m, rfl⟩ | rfl) <;> rfl
  · rintro v j e (⟨⟨n, rfl⟩ | rfl, rfl⟩ | ⟨rfl, ⟨n, rfl⟩ | rfl⟩) <;> rfl
  · rintro ⟨h1, h2⟩ rfl
    cases a <;> first | rfl | exact absurd rfl h1 | exact absurd rfl h2
  · rintro rfl; rfl

/-- C33: the pdf product is order dependent exactly in the mixed case: swapped operands both succeed unless exactly one
of the PDFs is extended. -/
theorem multiply_pdf_swap (i j : Nat) (e e' : Bool) :
    ((∃ r, multiply (X := X) (.pdf i e) (.pdf j e') = .ok r) ∧ (∃ r, multiply (X := X) (.pdf j e') (.pdf i e) = .ok r))
      ↔ e = e' := by
  cases e <;> cases e' <;> simp [multiply, toKnown, mulKnown, mulPdfPdf, bind, Except.bind]

/-- The parameters of `param * func` include those of the function under their names; the parameter itself only if the
function has no argument with the parameter's name. -/
theorem scaled_func_params (n : String) (v : Rat) (f : X → Rat) (ps : List (String × String))
    (hnd : (ps.map (·.1)).Nodup) (hn : n ∉ ps.map (·.1)) :
    multiply (.param n v) (.func f ps) = .ok (.func (fun x => v * f x) ((n, n) :: ps)) := by
  have key : ∀ (ps d : List (String × String)), (ps.map (·.1)).Nodup → (∀ k ∈ ps.map (·.1), k ∉ d.map (·.1)) →
      ps.foldl (fun d e => dictSet d e.1 e.2) d = d ++ ps := by
    intro ps
    induction ps with
    | nil => intro d _ _; simp
    | cons e ps ih =>
      intro d hnd hk
      rw [List.map_cons, List.nodup_cons] at hnd
      have hd : dictSet d e.1 e.2 = d ++ [e] := by
        have : ∀ d : List (String × String), e.1 ∉ d.map (·.1) → dictSet d e.1 e.2 = d ++ [e] := by
          intro d
          induction d with
          | nil => intro _; rfl
          | cons a d ih =>
            intro h
            rw [List.map_cons, List.mem_cons, not_or] at h
            unfold dictSet
            rw [if_neg (by simpa using fun h' => h.1 h'.symm), ih h.2]
            rfl
        exact this d (hk _ (by simp))
      rw [List.foldl_cons, hd, ih _ hnd.2]
      · simp
      · intro k hk'
        rw [List.map_append, List.mem_append, not_or]
        refine ⟨hk k (by simp [hk']), ?_⟩
        simp only [List.map_cons, List.map_nil, List.mem_singleton]
        rintro rfl
        exact hnd.1 hk'
  show Except.ok (mulParamFunc n v f ps) = _
  unfold mulParamFunc
  rw [key ps [(n, n)] hnd (by intro k hk; simp only [List.map_cons, List.map_nil, List.mem_singleton]; rintro rfl; exact hn hk)]
  rfl

/-- The parameter is lost from the parameters of the product if the function has an argument of that name, although the
value depends on it: here a parameter called `mu` times a function whose argument `mu` is the parameter `m1`. -/
theorem scaled_func_loses_parameter_violated :
    ((multiply (X := Unit) (.param "mu" 3) (.func (fun _ => 2) [("mu", "m1")])).map
      (fun r => match r with | .func f ps => (f (), ps) | _ => (0, []))) = .ok (6, [("mu", "m1")]) := by
  decide +kernel

example : (multiply (X := Unit) (.number 3) (.func (fun _ => 2) [("mu", "m1")])).map
    (fun r => match r with | .func f ps => (f (), ps) | _ => (0, [])) =
    .ok (6, [("FIXED_autoparam", "FIXED_autoparam"), ("mu", "m1")]) := by decide +kernel

end Zfit.Functor
