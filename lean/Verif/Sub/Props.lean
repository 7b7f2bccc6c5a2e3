import Verif.Sub.Model
import Mathlib.Data.List.Basic

/-!
# Which classes can be defined

* C249: `pdf_class`, `func_class`, `no_overrides`
* C250: `minimizer_class`
* C251: `binned_class_partial`, `binned_class_violated`
* C252: `simple_class`, `simple_instance`, `simple_refused`
-/

namespace Zfit.Sub

open Zfit

/-! ## Specification -/

/-- The methods of a PDF that have to say what they support. -/
def pdfMethods : List String :=
  ["_integrate", "_analytic_integrate", "_numeric_integrate", "_partial_integrate", "_partial_analytic_integrate",
   "_partial_numeric_integrate", "_sample", "_normalization", "_log_normalization", "_pdf", "_log_pdf", "_ext_pdf", "_ext_log_pdf"]

/-- The methods of a function. -/
def funcMethods : List String :=
  ["_integrate", "_analytic_integrate", "_numeric_integrate", "_partial_integrate", "_partial_analytic_integrate",
   "_partial_numeric_integrate", "_sample"]

/-- The methods of a binned PDF. -/
def binnedMethods : List String :=
  ["_pdf", "_ext_pdf", "_log_pdf", "_ext_log_pdf", "_normalization", "_log_normalization", "_integrate", "_ext_integrate", "_sample",
   "_counts", "_rel_counts"]

/-- The implementation that the classes before the base class give to a method, if there is one: that of the first one that has it. -/
def Implements : List Dict → String → Fn → Prop
  | [], _, _ => False
  | d :: ds, name, fn => dictGet d name = some fn ∨ dictGet d name = none ∧ Implements ds name fn

/-- `@supports` is the outermost decorator (or it is the implementation of the base class). -/
def Declares (fn : Fn) : Prop := fn = .base ∨ ∃ inner, fn = .user (.supports :: inner)

/-- The function has no decorator that can be seen. -/
def Bare (fn : Fn) : Prop := fn = .user [] ∨ ∃ inner, fn = .user (.plain :: inner)

/-! ## Lemmas -/

theorem implements_unique : ∀ (mro : List Dict) (name : String) (f g : Fn), Implements mro name f → Implements mro name g → f = g
  | [], _, _, _, h, _ => h.elim
  | d :: ds, name, f, g, h, h' => by
    rcases h with h | ⟨h, hr⟩ <;> rcases h' with h' | ⟨h', hr'⟩
    · rw [h] at h'; exact Option.some.inj h'
    · rw [h] at h'; exact absurd h' (by simp)
    · rw [h] at h'; exact absurd h' (by simp)
    · exact implements_unique ds name f g hr hr'

theorem getattr_implements : ∀ (mro : List Dict) (name : String) (fn : Fn), getattr? mro name = some fn ↔ Implements mro name fn
  | [], _, _ => by simp [getattr?, Implements]
  | d :: ds, name, fn => by
    have ih := getattr_implements ds name fn
    simp only [getattr?, Implements, List.findSome?_cons] at ih ⊢
    rcases hd : dictGet d name with _ | g
    · simpa using ih
    · simp

theorem getattr_append (mro base : List Dict) (name : String) :
    getattr? (mro ++ base) name = match getattr? mro name with | some f => some f | none => getattr? base name := by
  simp only [getattr?, List.findSome?_append]
  rcases List.findSome? (fun d => dictGet d name) mro with _ | f <;> rfl

theorem getattr_base (mro base : List Dict) (name : String) (h : getattr? base name = some .base) :
    ∃ fn, getattr? (mro ++ base) name = some fn ∧ (fn = .base ∨ Implements mro name fn) := by
  rw [getattr_append, h]
  rcases hm : getattr? mro name with _ | f
  · exact ⟨.base, rfl, .inl rfl⟩
  · exact ⟨f, rfl, .inr ((getattr_implements _ _ _).1 hm)⟩

theorem modelMethod_ok (name : String) (fn : Fn) (w : List String) :
    modelMethod name true fn = .ok w ↔ (Declares fn ∧ w = []) ∨ (name = "_pdf" ∧ Bare fn ∧ w = ["_pdf"]) := by
  unfold modelMethod Declares Bare
  rcases fn with _ | ds
  · simp [Fn.wrapped]
  · rcases ds with _ | ⟨d, ds⟩
    · by_cases hn : name = "_pdf"
      · subst hn; simp [Fn.wrapped]; exact eq_comm
      · simp [Fn.wrapped, hn]
    · rcases d with _ | _ | _
      · simp [Fn.wrapped]
      · simp [Fn.wrapped]
      · by_cases hn : name = "_pdf"
        · subst hn; simp [Fn.wrapped]; exact eq_comm
        · simp [Fn.wrapped, hn]

theorem modelCheck_ok (mro : List Dict) : ∀ (t : Table), (∀ nb ∈ t, nb.2 = true) →
    ((∃ w, modelCheck mro t = .ok w) ↔
      ∀ nb ∈ t, ∃ fn, getattr? mro nb.1 = some fn ∧ (Declares fn ∨ nb.1 = "_pdf" ∧ Bare fn))
  | [], _ => by simp [modelCheck]
  | (n, b) :: t, ht => by
    have hb : b = true := ht (n, b) (by simp)
    subst hb
    have ih := modelCheck_ok mro t fun nb h => ht nb (by simp [h])
    simp only [modelCheck, List.forall_mem_cons]
    rw [← ih]
    rcases hg : getattr? mro n with _ | fn
    · simp
    · rcases hm : modelMethod n true fn with e | w
      · have hno : ¬ (Declares fn ∨ n = "_pdf" ∧ Bare fn) := by
          rintro (h | h)
          · have := (modelMethod_ok n fn []).2 (.inl ⟨h, rfl⟩); rw [hm] at this; cases this
          · have := (modelMethod_ok n fn ["_pdf"]).2 (.inr ⟨h.1, h.2, rfl⟩); rw [hm] at this; cases this
        simp [hm, hno]
      · have hyes : Declares fn ∨ n = "_pdf" ∧ Bare fn := by
          rcases (modelMethod_ok n fn w).1 hm with h | h
          · exact .inl h.1
          · exact .inr ⟨h.1, h.2.1⟩
        rcases hc : modelCheck mro t with e | ws
        · simp [hm]
        · simp [hm, hyes]

theorem modelCheck_error (mro : List Dict) : ∀ (t : Table), (∀ nb ∈ t, (getattr? mro nb.1).isSome) → ∀ e,
    modelCheck mro t = .error e → e = .subclassing
  | [], _, e, h => by simp [modelCheck] at h
  | (n, b) :: t, ht, e, h => by
    have hs := ht (n, b) (by simp)
    have ih := modelCheck_error mro t (fun nb hnb => ht nb (by simp [hnb])) e
    simp only [modelCheck] at h
    rcases hg : getattr? mro n with _ | fn
    · rw [hg] at hs; simp at hs
    · rw [hg] at h
      dsimp only at h
      rcases hm : modelMethod n b fn with e' | w
      · rw [hm] at h
        cases h
        revert hm
        unfold modelMethod
        split
        · intro h; cases h
        · split
          · split <;> split <;> intro h <;> cases h <;> rfl
          · split
            · intro h; cases h
            · split <;> intro h <;> cases h <;> rfl
      · rw [hm] at h
        dsimp only at h
        rcases hc : modelCheck mro t with e' | ws
        · rw [hc] at h; cases h; exact ih hc
        · rw [hc] at h; cases h

theorem modelCheck_warns (mro : List Dict) : ∀ (t : Table) (w : List String), (∀ nb ∈ t, nb.2 = true) → modelCheck mro t = .ok w →
    ∀ m, m ∈ w ↔ m = "_pdf" ∧ (∃ nb ∈ t, nb.1 = "_pdf") ∧ ∃ fn, getattr? mro "_pdf" = some fn ∧ Bare fn
  | [], w, _, h, m => by simp [modelCheck] at h; subst h; simp
  | (n, b) :: t, w, ht, h, m => by
    have hb : b = true := ht (n, b) (by simp)
    subst hb
    have ih := fun ws hws => modelCheck_warns mro t ws (fun nb h => ht nb (by simp [h])) hws m
    simp only [modelCheck] at h
    rcases hg : getattr? mro n with _ | fn
    · rw [hg] at h; cases h
    · rw [hg] at h
      dsimp only at h
      rcases hm : modelMethod n true fn with e' | w1
      · rw [hm] at h; cases h
      · rw [hm] at h
        dsimp only at h
        rcases hc : modelCheck mro t with e' | ws
        · rw [hc] at h; cases h
        · rw [hc] at h
          cases h
          rw [List.mem_append, ih ws hc]
          have hx : Declares fn → ¬ Bare fn := by
            rintro (rfl | ⟨i, rfl⟩) (h | ⟨j, h⟩) <;> cases h
          rcases (modelMethod_ok n fn w1).1 hm with ⟨hd, rfl⟩ | ⟨rfl, hbare, rfl⟩
          · constructor
            · rintro (h | ⟨h1, ⟨nb, hnb, hq⟩, h3⟩)
              · simp at h
              · exact ⟨h1, ⟨nb, by simp [hnb], hq⟩, h3⟩
            · rintro ⟨h1, ⟨nb, hnb, hq⟩, fn', h3, h4⟩
              right
              rcases List.mem_cons.1 hnb with rfl | hnb
              · simp only at hq
                subst hq
                rw [hg] at h3
                cases h3
                exact absurd h4 (hx hd)
              · exact ⟨h1, ⟨nb, hnb, hq⟩, fn', h3, h4⟩
          · constructor
            · rintro (h | ⟨h1, ⟨nb, hnb, hq⟩, h3⟩)
              · exact ⟨by simpa using h, ⟨("_pdf", true), by simp, rfl⟩, fn, hg, hbare⟩
              · exact ⟨h1, ⟨nb, by simp [hnb], hq⟩, h3⟩
            · rintro ⟨rfl, -, -⟩
              left; simp

/-! ## C249 -/

theorem base_pdf : ∀ nb ∈ modelTable ++ pdfTable, getattr? [pdfTable.dict, modelTable.dict] nb.1 = some .base := by decide +kernel

theorem flags : (∀ nb ∈ modelTable, nb.2 = true) ∧ (∀ nb ∈ pdfTable, nb.2 = true) := by decide +kernel

theorem names_pdf (n : String) : n ∈ pdfMethods ↔ ∃ nb ∈ modelTable ++ pdfTable, nb.1 = n := by
  simp only [pdfMethods, modelTable, pdfTable, List.cons_append, List.nil_append, List.mem_cons, List.not_mem_nil, or_false,
    exists_eq_or_imp, exists_eq_left, Prod.exists]
  constructor <;> intro h <;> aesop

theorem base_func : ∀ nb ∈ modelTable, getattr? [modelTable.dict] nb.1 = some .base := by decide +kernel

theorem names_func (n : String) : n ∈ funcMethods ↔ ∃ nb ∈ modelTable, nb.1 = n := by
  simp only [funcMethods, modelTable, List.mem_cons, List.not_mem_nil, or_false, exists_eq_or_imp, exists_eq_left, Prod.exists]
  constructor <;> intro h <;> aesop

/-- **C249.** A class derived from `BasePDF` (or one of its subclasses, with any mixins) can be defined exactly if each of the methods in
the list that it overrides, itself or by inheritance, has `@supports(...)` as its outermost decorator; only `_pdf` may have no decorator,
which gives a warning. Otherwise the definition fails with a subclassing error. -/
theorem pdf_class (mro : List Dict) :
    ((∃ w, definePdf mro = .ok w) ↔
      ∀ name ∈ pdfMethods, ∀ fn, Implements mro name fn → Declares fn ∨ name = "_pdf" ∧ Bare fn) ∧
    (∀ e, definePdf mro = .error e → e = .subclassing) ∧
    ∀ w, definePdf mro = .ok w → ∀ m, m ∈ w ↔ m = "_pdf" ∧ ∃ fn, Implements mro "_pdf" fn ∧ Bare fn := by
  have hget : ∀ nb ∈ modelTable ++ pdfTable, ∀ P : Fn → Prop, P .base →
      ((∃ fn, getattr? (mro ++ [pdfTable.dict, modelTable.dict]) nb.1 = some fn ∧ P fn) ↔ ∀ fn, Implements mro nb.1 fn → P fn) := by
    intro nb hnb P hP
    have hb := base_pdf nb hnb
    rw [getattr_append, hb]
    rcases hm : getattr? mro nb.1 with _ | f
    · constructor
      · intro _ fn hfn
        rw [← getattr_implements, hm] at hfn; cases hfn
      · intro _; exact ⟨.base, rfl, hP⟩
    · have hf := (getattr_implements _ _ _).1 hm
      constructor
      · rintro ⟨fn, h, hp⟩ fn' hfn'
        cases h
        rw [implements_unique _ _ _ _ hfn' hf]; exact hp
      · intro h; exact ⟨f, rfl, h f hf⟩
  have hsome : ∀ nb ∈ modelTable ++ pdfTable, (getattr? (mro ++ [pdfTable.dict, modelTable.dict]) nb.1).isSome := by
    intro nb hnb
    obtain ⟨fn, h, -⟩ := getattr_base mro _ nb.1 (base_pdf nb hnb)
    rw [h]; rfl
  have h1 := modelCheck_ok (mro ++ [pdfTable.dict, modelTable.dict]) modelTable flags.1
  have h2 := modelCheck_ok (mro ++ [pdfTable.dict, modelTable.dict]) pdfTable flags.2
  have hbase : Declares Fn.base := .inl rfl
  refine ⟨?_, ?_, ?_⟩
  · have : (∃ w, definePdf mro = .ok w) ↔
        (∃ w, modelCheck (mro ++ [pdfTable.dict, modelTable.dict]) modelTable = .ok w) ∧
        ∃ w, modelCheck (mro ++ [pdfTable.dict, modelTable.dict]) pdfTable = .ok w := by
      unfold definePdf
      rcases modelCheck (mro ++ [pdfTable.dict, modelTable.dict]) modelTable with e | w
      · simp
      · rcases modelCheck (mro ++ [pdfTable.dict, modelTable.dict]) pdfTable with e | w' <;> simp
    rw [this, h1, h2]
    constructor
    · rintro ⟨ha, hb⟩ name hname
      obtain ⟨nb, hnb, rfl⟩ := (names_pdf name).1 hname
      refine (hget nb hnb (fun fn => Declares fn ∨ nb.1 = "_pdf" ∧ Bare fn) (.inl hbase)).1 ?_
      rcases List.mem_append.1 hnb with h | h
      · exact ha nb h
      · exact hb nb h
    · intro h
      refine ⟨fun nb hnb => ?_, fun nb hnb => ?_⟩
      · exact (hget nb (List.mem_append_left _ hnb) (fun fn => Declares fn ∨ nb.1 = "_pdf" ∧ Bare fn) (.inl hbase)).2
          (h nb.1 ((names_pdf _).2 ⟨nb, List.mem_append_left _ hnb, rfl⟩))
      · exact (hget nb (List.mem_append_right _ hnb) (fun fn => Declares fn ∨ nb.1 = "_pdf" ∧ Bare fn) (.inl hbase)).2
          (h nb.1 ((names_pdf _).2 ⟨nb, List.mem_append_right _ hnb, rfl⟩))
  · intro e he
    unfold definePdf at he
    rcases hA : modelCheck (mro ++ [pdfTable.dict, modelTable.dict]) modelTable with e' | w
    · rw [hA] at he
      cases he
      exact modelCheck_error _ _ (fun nb h => hsome nb (List.mem_append_left _ h)) _ hA
    · rw [hA] at he
      dsimp only at he
      rcases hB : modelCheck (mro ++ [pdfTable.dict, modelTable.dict]) pdfTable with e' | w'
      · rw [hB] at he
        cases he
        exact modelCheck_error _ _ (fun nb h => hsome nb (List.mem_append_right _ h)) _ hB
      · rw [hB] at he; cases he
  · intro w hw m
    unfold definePdf at hw
    rcases hA : modelCheck (mro ++ [pdfTable.dict, modelTable.dict]) modelTable with e' | w1
    · rw [hA] at hw; cases hw
    · rw [hA] at hw
      dsimp only at hw
      rcases hB : modelCheck (mro ++ [pdfTable.dict, modelTable.dict]) pdfTable with e' | w2
      · rw [hB] at hw; cases hw
      · rw [hB] at hw
        cases hw
        rw [List.mem_append, modelCheck_warns _ _ _ flags.1 hA, modelCheck_warns _ _ _ flags.2 hB]
        have hn1 : ¬ ∃ nb ∈ modelTable, nb.1 = "_pdf" := by decide +kernel
        have hn2 : ∃ nb ∈ pdfTable, nb.1 = "_pdf" := by decide +kernel
        have hp : (∃ fn, getattr? (mro ++ [pdfTable.dict, modelTable.dict]) "_pdf" = some fn ∧ Bare fn) ↔
            ∃ fn, Implements mro "_pdf" fn ∧ Bare fn := by
          have hb : getattr? [pdfTable.dict, modelTable.dict] "_pdf" = some .base := by decide +kernel
          rw [getattr_append, hb]
          rcases hm : getattr? mro "_pdf" with _ | f
          · constructor
            · rintro ⟨fn, h, hbare⟩
              cases h
              rcases hbare with h | ⟨_, h⟩ <;> cases h
            · rintro ⟨fn, h, -⟩
              rw [← getattr_implements, hm] at h; cases h
          · have hf := (getattr_implements _ _ _).1 hm
            constructor
            · rintro ⟨fn, h, hbare⟩
              cases h
              exact ⟨f, hf, hbare⟩
            · rintro ⟨fn, h, hbare⟩
              rw [implements_unique _ _ _ _ h hf] at hbare
              exact ⟨f, rfl, hbare⟩
        rw [hp]
        simp only [hn1, hn2, false_and, and_false, false_or, true_and]

/-- **C249** for functions, none of whose methods in the list may lack the decorator. -/
theorem func_class (mro : List Dict) :
    ((∃ w, defineFunc mro = .ok w) ↔ ∀ name ∈ funcMethods, ∀ fn, Implements mro name fn → Declares fn) ∧
    ∀ e, defineFunc mro = .error e → e = .subclassing := by
  have hsome : ∀ nb ∈ modelTable, (getattr? (mro ++ [modelTable.dict]) nb.1).isSome := by
    intro nb hnb
    obtain ⟨fn, h, -⟩ := getattr_base mro _ nb.1 (base_func nb hnb)
    rw [h]; rfl
  refine ⟨?_, fun e he => modelCheck_error _ _ hsome _ he⟩
  unfold defineFunc
  rw [modelCheck_ok _ _ flags.1]
  have hno : ∀ nb ∈ modelTable, nb.1 ≠ "_pdf" := by decide +kernel
  constructor
  · intro h name hname fn hfn
    obtain ⟨nb, hnb, rfl⟩ := (names_func name).1 hname
    obtain ⟨fn', hg, hd⟩ := h nb hnb
    rw [getattr_append, (getattr_implements _ _ _).2 hfn] at hg
    cases hg
    rcases hd with hd | hd
    · exact hd
    · exact absurd hd.1 (hno nb hnb)
  · intro h nb hnb
    obtain ⟨fn, hg, hb | hi⟩ := getattr_base mro _ nb.1 (base_func nb hnb)
    · exact ⟨fn, hg, .inl (.inl hb)⟩
    · exact ⟨fn, hg, .inl (h nb.1 ((names_func _).2 ⟨nb, hnb, rfl⟩) fn hi)⟩

/-- **C249**, inheritance: what was accepted stays accepted in every subclass and with every mixin that does not touch the methods in the
list. -/
theorem no_overrides (parent : List Dict) (child : Dict) (hc : ∀ name ∈ pdfMethods, dictGet child name = none)
    (w : List String) (hp : definePdf parent = .ok w) : ∃ w', definePdf (child :: parent) = .ok w' := by
  rw [(pdf_class (child :: parent)).1]
  intro name hname fn hfn
  rcases hfn with h | ⟨-, h⟩
  · rw [hc name hname] at h; cases h
  · exact (pdf_class parent).1.1 ⟨w, hp⟩ name hname fn h

/-- A class that overrides `_pdf` without decorator and `_integrate` with `@supports` on top of another decorator. -/
example : definePdf [[("_pdf", .user []), ("helper", .user [.wraps])], [("_integrate", .user [.supports, .wraps])]] = .ok ["_pdf"] := by
  decide +kernel

/-- The other order of decorators, and a forgotten one. -/
example : definePdf [[("_integrate", .user [.wraps, .supports])]] = .error .subclassing ∧
    definePdf [[("_pdf", .user [.supports])], [("_sample", .user [])]] = .error .subclassing := by decide +kernel

/-! ## C250 -/

/-- **C250.** A class derived from `BaseMinimizer` can be defined exactly if the implementation of `_minimize` that it overrides, itself or
by inheritance, has `@minimize_supports(...)` as its outermost decorator; otherwise the definition fails with a subclassing error. -/
theorem minimizer_class (mro : List Dict) :
    (defineMinimizer mro = .ok () ↔ ∀ fn, Implements mro "_minimize" fn → Declares fn) ∧
    (defineMinimizer mro = .ok () ∨ defineMinimizer mro = .error .subclassing) := by
  have hb : getattr? [minimizerTable.dict] "_minimize" = some .base := by decide +kernel
  unfold defineMinimizer
  simp only [minimizerTable, minimizerCheck]
  rw [show [Table.dict [("_minimize", true)]] = [minimizerTable.dict] from rfl, getattr_append, hb]
  rcases hm : getattr? mro "_minimize" with _ | f
  · refine ⟨⟨fun _ fn hfn => ?_, fun _ => rfl⟩, .inl rfl⟩
    rw [← getattr_implements, hm] at hfn; cases hfn
  · have hf := (getattr_implements _ _ _).1 hm
    have hall : (∀ fn, Implements mro "_minimize" fn → Declares fn) ↔ Declares f :=
      ⟨fun h => h f hf, fun h fn hfn => by rw [implements_unique _ _ _ _ hfn hf]; exact h⟩
    rw [hall]
    unfold minimizerMethod Declares
    dsimp only
    rcases f with _ | ds
    · simp [Fn.wrapped]
    · rcases ds with _ | ⟨d, ds⟩
      · simp [Fn.wrapped]
      · rcases d with _ | _ | _ <;> simp [Fn.wrapped]

/-- Some minimisers. -/
example : defineMinimizer [[("_minimize", .user [.supports])]] = .ok () ∧ defineMinimizer [[("_step", .user [])]] = .ok () ∧
    defineMinimizer [[], [("_minimize", .user [])]] = .error .subclassing := by decide +kernel

/-! ## C251 -/

/-- **C251, partial.** A binned PDF whose overridden methods have the decorator can be defined.
Missing from the full claim: that a class with a method without the decorator is refused, see `binned_class_violated`. -/
theorem binned_class_partial (mro : List Dict) (_h : ∀ name ∈ binnedMethods, ∀ fn, Implements mro name fn → Declares fn) :
    defineBinned mro = .ok () := rfl

/-- **C251 is violated.** A binned PDF without the decorator on `_counts` is accepted although the check that is written for binned PDFs
would refuse it: nothing calls the check. -/
theorem binned_class_violated :
    ∃ mro : List Dict, (∃ fn, Implements mro "_counts" fn ∧ ¬ Declares fn) ∧ defineBinned mro = .ok () ∧
      binnedCheck (mro ++ [binnedTable.dict]) binnedTable = .error .subclassing := by
  refine ⟨[[("_counts", .user [])]], ⟨.user [], .inl (by decide +kernel), ?_⟩, rfl, by decide +kernel⟩
  rintro (h | ⟨_, h⟩) <;> cases h

/-! ## C252 -/

/-- **C252, classes.** A class derived from `ZPDF` can be defined exactly if it or the nearest base that says something about `_PARAMS`
lists strings; these are the names of its parameters. -/
theorem simple_class (before after : List Declared) (params : List (Option String)) (hb : ∀ d ∈ before, d = none) :
    (∀ names : List String, defineSimple (before ++ some params :: after) = .ok names ↔ params = names.map some) ∧
    (∃ e, defineSimple before = .error e) := by
  have h1 : List.findSome? id before = none := by
    rw [List.findSome?_eq_none_iff]; intro d hd; exact hb d hd
  have h2 : List.findSome? id (before ++ some params :: after) = some params := by
    rw [List.findSome?_append, h1]; rfl
  refine ⟨fun names => ?_, ?_⟩
  · unfold defineSimple
    rw [h2]
    dsimp only
    split
    · next hn =>
      constructor
      · intro h; cases h
      · rintro rfl; simp at hn
    · next hn =>
      have : ∀ l : List (Option String), none ∉ l → l = (l.filterMap id).map some := by
        intro l
        induction l with
        | nil => intro _; rfl
        | cons a l ih =>
          intro h
          rcases a with _ | a
          · simp at h
          · simp only [List.mem_cons, not_or] at h
            simpa using ih h.2
      constructor
      · intro h
        cases h
        exact this params hn
      · rintro rfl
        simp
  · unfold defineSimple
    rw [h1]
    exact ⟨_, rfl⟩

theorem dictGet_filter_ne {V : Type} (kw : List (String × V)) (n k : String) (h : k ≠ n) :
    dictGet (kw.filter fun kv => decide (kv.1 ≠ n)) k = dictGet kw k := by
  induction kw with
  | nil => rfl
  | cons a kw ih =>
    by_cases ha : a.1 = n
    · have hk : a.1 ≠ k := fun h' => h (h'.symm.trans ha)
      simp only [List.filter_cons, ha, ne_eq, not_true_eq_false, decide_false, Bool.false_eq_true, if_false]
      rw [show (kw.filter fun kv => decide (¬ kv.1 = n)) = kw.filter fun kv => decide (kv.1 ≠ n) from rfl, ih]
      simp [dictGet, hk]
    · simp only [List.filter_cons, ha, ne_eq, not_false_eq_true, decide_true, if_true]
      rw [show (kw.filter fun kv => decide (¬ kv.1 = n)) = kw.filter fun kv => decide (kv.1 ≠ n) from rfl]
      by_cases hk : a.1 = k
      · simp [dictGet, hk]
      · simpa [dictGet, hk] using ih

theorem dictGet_filter_self {V : Type} (kw : List (String × V)) (n : String) :
    dictGet (kw.filter fun kv => decide (kv.1 ≠ n)) n = none := by
  induction kw with
  | nil => rfl
  | cons a kw ih =>
    by_cases ha : a.1 = n
    · simpa [List.filter_cons, ha] using ih
    · simpa [List.filter_cons, ha, dictGet] using ih

theorem popAll_ok {V : Type} : ∀ (names : List String) (kw ps rest : List (String × V)),
    popAll names kw = .ok (ps, rest) ↔
      names.Nodup ∧ ps.map (·.1) = names ∧ (∀ nv ∈ ps, dictGet kw nv.1 = some nv.2) ∧ rest = kw.filter fun kv => decide (kv.1 ∉ names)
  | [], kw, ps, rest => by
    simp only [popAll, List.nodup_nil, List.map_eq_nil_iff, List.not_mem_nil, not_false_eq_true, decide_true, List.filter_true,
      Except.ok.injEq, Prod.mk.injEq, true_and]
    constructor
    · rintro ⟨rfl, rfl⟩; exact ⟨rfl, by simp, rfl⟩
    · rintro ⟨rfl, -, rfl⟩; exact ⟨rfl, rfl⟩
  | n :: ns, kw, ps, rest => by
    simp only [popAll]
    rcases hg : dictGet kw n with _ | v
    · simp only [reduceCtorEq, false_iff, not_and]
      intro _ hmap hval
      rcases ps with _ | ⟨p, ps⟩
      · simp at hmap
      · have := hval p (by simp)
        rw [List.map_cons, List.cons.injEq] at hmap
        rw [hmap.1, hg] at this; cases this
    · dsimp only
      have ih := popAll_ok ns (kw.filter fun kv => decide (kv.1 ≠ n))
      have hflt : (kw.filter fun kv => decide (kv.1 ≠ n)).filter (fun kv => decide (kv.1 ∉ ns)) =
          kw.filter fun kv => decide (kv.1 ∉ n :: ns) := by
        rw [List.filter_filter]
        apply List.filter_congr
        intro kv _
        simp only [List.mem_cons, not_or, Bool.decide_and]
        rw [Bool.and_comm]
      constructor
      · intro h
        rcases hp : popAll ns (kw.filter fun kv => decide (kv.1 ≠ n)) with e | ⟨ps', rest'⟩
        · rw [hp] at h; cases h
        · rw [hp] at h
          dsimp only at h
          rw [Except.ok.injEq, Prod.mk.injEq] at h
          obtain ⟨rfl, rfl⟩ := h
          obtain ⟨hnd, hmap, hval, hrest⟩ := (ih ps' _).1 hp
          have hn : n ∉ ns := by
            intro hn
            rw [← hmap] at hn
            obtain ⟨nv, hnv, rfl⟩ := List.mem_map.1 hn
            have := hval nv hnv
            rw [dictGet_filter_self] at this; cases this
          refine ⟨List.nodup_cons.2 ⟨hn, hnd⟩, by simp [hmap], ?_, by rw [hrest, hflt]⟩
          intro nv hnv
          rcases List.mem_cons.1 hnv with rfl | hnv
          · exact hg
          · rw [← hval nv hnv, dictGet_filter_ne]
            intro heq
            rw [← hmap, ← heq] at hn
            exact hn (List.mem_map.2 ⟨nv, hnv, rfl⟩)
      · rintro ⟨hnd, hmap, hval, hrest⟩
        rcases ps with _ | ⟨p, ps⟩
        · simp at hmap
        · rw [List.map_cons, List.cons.injEq] at hmap
          have hnd' := List.nodup_cons.1 hnd
          have := (ih ps rest).2 ⟨hnd'.2, hmap.2, ?_, by rw [hrest, hflt]⟩
          · rw [this]
            have hv := hval p (by simp)
            rw [hmap.1, hg] at hv
            cases hv
            rw [← hmap.1]
          · intro nv hnv
            rw [dictGet_filter_ne, hval nv (by simp [hnv])]
            rintro rfl
            exact hnd'.1 (hmap.2 ▸ List.mem_map.2 ⟨nv, hnv, rfl⟩)

/-- **C252, instances.** An instance can be made exactly if the names of `_PARAMS` differ and each is given as a keyword argument, `obs`
is given and every other argument is one that PDFs know. Its parameters are then those in `_PARAMS`, in that order, each with the value
given under its name, and all other arguments are handed on. -/
theorem simple_instance {V : Type} (names : List String) (kwargs ps rest : List (String × V)) :
    makeSimple names kwargs = .ok (ps, rest) ↔
      (names.Nodup ∧ ps.map (·.1) = names ∧ (∀ nv ∈ ps, dictGet kwargs nv.1 = some nv.2) ∧
        rest = kwargs.filter fun kv => decide (kv.1 ∉ names)) ∧
      "obs" ∈ rest.map (·.1) ∧ ∀ kv ∈ rest, kv.1 ∈ ["obs", "dtype", "label", "extended", "norm", "name", "autograd_params"] := by
  rw [← popAll_ok]
  unfold makeSimple
  rcases hp : popAll names kwargs with e | ⟨ps', rest'⟩
  · simp
  · dsimp only
    by_cases h1 : "params" ∈ rest'.map (·.1)
    · rw [if_pos h1]
      simp only [reduceCtorEq, false_iff, not_and]
      intro h _ hk
      cases h
      obtain ⟨kv, hkv, heq⟩ := List.mem_map.1 h1
      have := hk kv hkv
      rw [heq] at this
      revert this
      decide +kernel
    · rw [if_neg h1]
      by_cases h2 : "obs" ∈ rest'.map (·.1)
      · rw [if_neg (by simpa using h2)]
        by_cases h3 : ∀ kv ∈ rest', kv.1 ∈ pdfKeywords
        · rw [if_pos h3]
          constructor
          · intro h; cases h; exact ⟨rfl, h2, h3⟩
          · intro h; exact h.1
        · rw [if_neg h3]
          simp only [reduceCtorEq, false_iff, not_and]
          intro h _ hk
          cases h
          exact h3 hk
      · rw [if_pos h2]
        simp only [reduceCtorEq, false_iff, not_and]
        intro h hk
        cases h
        exact absurd hk h2

/-- **C252, instances.** If a parameter is not given, a `ValueError` is raised. -/
theorem simple_refused {V : Type} (names : List String) (kwargs : List (String × V)) (n : String) (hn : n ∈ names)
    (h : dictGet kwargs n = none) : makeSimple names kwargs = .error .valueError := by
  have : popAll names kwargs = .error .valueError := by
    revert hn
    induction names generalizing kwargs with
    | nil => intro hn; simp at hn
    | cons a ns ih =>
      intro hn
      simp only [popAll]
      rcases hg : dictGet kwargs a with _ | v
      · rfl
      · have hne : n ≠ a := by rintro rfl; rw [h] at hg; cases hg
        have := ih (kwargs.filter fun kv => decide (kv.1 ≠ a)) (by rw [dictGet_filter_ne _ _ _ hne]; exact h)
          (by simpa [hne] using hn)
        dsimp only
        rw [this]
  unfold makeSimple
  rw [this]

/-- A Gaussian with a default name. -/
example : defineSimple [none, some [some "mu", some "sigma"]] = .ok ["mu", "sigma"] ∧
    makeSimple ["mu", "sigma"] [("obs", 0), ("name", 1), ("sigma", 2), ("mu", 3)] =
      .ok ([("mu", 3), ("sigma", 2)], [("obs", 0), ("name", 1)]) ∧
    makeSimple ["mu", "sigma"] [("obs", 0), ("mu", 3)] = .error .valueError ∧
    makeSimple ["mu"] [("obs", 0), ("mu", 3), ("lam", 4)] = .error .assertionError := by decide +kernel

end Zfit.Sub
