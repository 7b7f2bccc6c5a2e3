import Verif.Own.ClassModel
import Verif.Common.Except
import Mathlib.Tactic.Common

/-!
# C196-C198, C200: classes of models
-/

namespace Zfit.Own

open Zfit

/-! ## C196 -/

/-- A method of a class is in order: it is that of the base class, or decorated. -/
def InOrder (c : Mro) (name : String) : Prop := c.attr name = some .base ∨ c.attr name = some .deco

instance (c : Mro) (name : String) : Decidable (InOrder c name) := inferInstanceAs (Decidable (_ ∨ _))

theorem checkMethod_ok (w : List String) (c : Mro) (name : String) :
    checkMethod w c name true = .ok () ↔ InOrder c name ∨ (name ∈ w ∧ c.attr name = some .plain) := by
  unfold checkMethod InOrder
  cases h : c.attr name with
  | none => simp
  | some k =>
    cases k <;> simp

theorem checkSupport_ok (w : List String) (reg : List (String × Bool)) (c : Mro) (hreg : ∀ e ∈ reg, e.2 = true) :
    checkSupport w reg c = .ok () ↔ ∀ e ∈ reg, InOrder c e.1 ∨ (e.1 ∈ w ∧ c.attr e.1 = some .plain) := by
  unfold checkSupport
  induction reg with
  | nil => simp [List.forM_nil, pure, Except.pure]
  | cons e reg ih =>
    change (checkMethod w c e.1 e.2 >>= fun _ => reg.forM fun e => checkMethod w c e.1 e.2) = Except.ok () ↔ _
    have he := hreg e (by simp)
    have ih := ih fun e' h => hreg e' (by simp [h])
    constructor
    · intro h e' he'
      obtain ⟨_, h1, h2⟩ := bind_eq_ok.1 h
      rw [he] at h1
      rcases List.mem_cons.1 he' with rfl | hm
      · exact (checkMethod_ok w c _).1 h1
      · exact ih.1 h2 e' hm
    · intro h
      refine bind_eq_ok.2 ⟨(), ?_, ih.2 fun e' h' => h e' (by simp [h'])⟩
      rw [he]
      exact (checkMethod_ok w c _).2 (h e (by simp))

/-- The hooks of PDFs that receive norms or limits. -/
def pdfHooks : List String :=
  ["_integrate", "_analytic_integrate", "_numeric_integrate", "_partial_integrate", "_partial_analytic_integrate",
    "_partial_numeric_integrate", "_sample", "_normalization", "_ext_pdf", "_ext_log_pdf", "_pdf", "_log_pdf", "_log_normalization"]

/-- The hooks of binned PDFs. -/
def binnedHooks : List String :=
  ["_pdf", "_ext_pdf", "_log_pdf", "_ext_log_pdf", "_log_normalization", "_normalization", "_integrate", "_ext_integrate", "_sample",
    "_counts", "_rel_counts"]

/-- C196, in part: a class statement for a PDF succeeds only if each hook, wherever in the bases it comes from, is that of the library or
decorated, and it does if they all are.  Missing: `_pdf`, which only gives a warning, see below. -/
theorem pdf_class_partial (c : Mro) :
    (definePdf c = .ok () → ∀ name ∈ pdfHooks, name ≠ "_pdf" → InOrder c name) ∧
    ((∀ name ∈ pdfHooks, InOrder c name) → definePdf c = .ok ()) := by
  have hm := checkSupport_ok ["_pdf"] modelRegistry c (by decide)
  have hp := checkSupport_ok ["_pdf"] pdfRegistry c (by decide)
  have hnames : ∀ name, name ∈ pdfHooks ↔ name ∈ (modelRegistry ++ pdfRegistry).map (·.1) := by
    intro name
    rfl
  unfold definePdf
  constructor
  · intro h name hname hne
    obtain ⟨_, h1, h2⟩ := bind_eq_ok.1 h
    rw [hnames, List.map_append, List.mem_append] at hname
    rcases hname with hname | hname
    · obtain ⟨e, he, rfl⟩ := List.mem_map.1 hname
      rcases hm.1 h1 e he with h | ⟨h, -⟩
      · exact h
      · exact absurd (by simpa using h) hne
    · obtain ⟨e, he, rfl⟩ := List.mem_map.1 hname
      rcases hp.1 h2 e he with h | ⟨h, -⟩
      · exact h
      · exact absurd (by simpa using h) hne
  · intro h
    refine bind_eq_ok.2 ⟨(), hm.2 fun e he => .inl (h _ ((hnames _).2 ?_)), hp.2 fun e he => .inl (h _ ((hnames _).2 ?_))⟩
    · rw [List.map_append]
      exact List.mem_append_left _ (List.mem_map_of_mem he)
    · rw [List.map_append]
      exact List.mem_append_right _ (List.mem_map_of_mem he)

/-- C196 for binned PDFs, without exception. -/
theorem binned_class (c : Mro) : defineBinned c = .ok () ↔ ∀ name ∈ binnedHooks, InOrder c name := by
  unfold defineBinned
  rw [checkSupport_ok [] binnedRegistry c (by decide)]
  constructor
  · intro h name hname
    have : name ∈ binnedRegistry.map (·.1) := hname
    obtain ⟨e, he, rfl⟩ := List.mem_map.1 this
    rcases h e he with h | ⟨h, -⟩
    · exact h
    · simp at h
  · intro h e he
    exact .inl (h _ (show e.1 ∈ binnedRegistry.map (·.1) from List.mem_map_of_mem he))

/-- C196 for minimisers, without exception. -/
theorem minimizer_class (c : Mro) : defineMinimizer c = .ok () ↔ InOrder c "_minimize" := by
  unfold defineMinimizer
  rw [checkSupport_ok [] minimizerRegistry c (by decide)]
  simp [minimizerRegistry]

/-- The methods of the base classes. -/
def basePdf : Mro := [pdfHooks.map fun n => (n, .base)]

/-- a class that overrides hooks, one that inherits from a mixin with a hook that is not decorated, one decorated twice -/
example :
    definePdf ([("_integrate", .deco), ("_pdf", .deco)] :: basePdf) = .ok () ∧
    definePdf ([] :: [("_sample", .plain)] :: basePdf) = .error (.subclassing "_sample") ∧
    definePdf ([("_log_pdf", .other)] :: basePdf) = .error (.subclassing "_log_pdf") ∧
    defineMinimizer [[("_minimize", .plain)], [("_minimize", .base)]] = .error (.subclassing "_minimize") := by
  decide +kernel

/-- C196 is violated by `_pdf`: a class that overrides it without the decorator is accepted with a warning (basemodel.py:187-199), and this
method is then called with any norm. -/
theorem plain_pdf_violated :
    "_pdf" ∈ pdfHooks ∧ definePdf ([("_pdf", .plain)] :: basePdf) = .ok () ∧ ¬ InOrder ([("_pdf", .plain)] :: basePdf) "_pdf" := by
  decide +kernel

/-! ## C197 -/

section registries

variable {L F : Type} [DecidableEq L]

/-- How many classes have been defined. -/
def defined : List (Stmt L F) → ℕ
  | [] => 0
  | .subclass _ :: h => defined h + 1
  | _ :: h => defined h

/-- The integral that was registered last with the class itself, once it was there, for the limits; the latest statement first. -/
def lastIntegral (cls : ℕ) (limits : L) : List (Stmt L F) → Option F
  | [] => none
  | .integral c l f :: h => if c = cls ∧ l = limits ∧ 1 ≤ cls ∧ cls ≤ defined h then some f else lastIntegral cls limits h
  | _ :: h => lastIntegral cls limits h

/-- The inverse that was registered last with the class itself. -/
def lastInverse (cls : ℕ) : List (Stmt L F) → Option F
  | [] => none
  | .inverse c f :: h => if c = cls ∧ 1 ≤ cls ∧ cls ≤ defined h then some f else lastInverse cls h
  | _ :: h => lastInverse cls h

theorem run_cons (h : List (Stmt L F)) (st : Stmt L F) : Classes.run (st :: h).reverse = (Classes.run h.reverse).step st := by
  unfold Classes.run
  rw [List.reverse_cons, List.foldl_append]
  rfl

/-- Every class has registries of its own. -/
theorem run_attr (h : List (Stmt L F)) :
    (Classes.run h.reverse).objects.length = defined h ∧
      ∀ i, (Classes.run h.reverse).attr[i]? = if i ≤ defined h then some (if i = 0 then none else some (i - 1)) else none := by
  induction h with
  | nil =>
    refine ⟨rfl, fun i => ?_⟩
    cases i with
    | zero => rfl
    | succ i => simp [Classes.run, Classes.init, defined]
  | cons st h ih =>
    rw [run_cons]
    obtain ⟨ih1, ih2⟩ := ih
    have hlen : (Classes.run h.reverse).attr.length = defined h + 1 := by
      have h1 := ih2 (defined h)
      have h2 := ih2 (defined h + 1)
      rw [if_pos (Nat.le_refl _)] at h1
      rw [if_neg (by omega)] at h2
      have := (List.getElem?_eq_some_iff.1 h1).1
      have := List.getElem?_eq_none_iff.1 h2
      omega
    cases st with
    | subclass p =>
      unfold Classes.step defined
      dsimp only
      refine ⟨by simp [ih1], fun i => ?_⟩
      rw [List.getElem?_append, hlen]
      split
      · rename_i hi
        have h1 : i ≤ defined h := by omega
        have h2 : i ≤ defined h + 1 := by omega
        rw [ih2, if_pos h1, if_pos h2]
      · rename_i hi
        by_cases hi' : i = defined h + 1
        · subst hi'
          simp [ih1]
        · rw [if_neg (by omega), List.getElem?_eq_none (by simp; omega)]
    | integral cls l f =>
      unfold Classes.step defined
      dsimp only
      split
      · exact ⟨by simpa using ih1, ih2⟩
      · exact ⟨ih1, ih2⟩
    | inverse cls f =>
      unfold Classes.step defined
      dsimp only
      split
      · exact ⟨by simpa using ih1, ih2⟩
      · exact ⟨ih1, ih2⟩

theorem reg_eq (h : List (Stmt L F)) (cls : ℕ) :
    (Classes.run h.reverse).reg cls = if 1 ≤ cls ∧ cls ≤ defined h then (Classes.run h.reverse).objects[cls - 1]? else none := by
  unfold Classes.reg
  rw [(run_attr h).2]
  by_cases h1 : cls ≤ defined h
  · rw [if_pos h1]
    by_cases h0 : cls = 0
    · subst h0
      simp
    · rw [if_neg h0, if_pos ⟨by omega, h1⟩]
  · rw [if_neg h1, if_neg (by omega)]

/-- Whether a statement defines a class. -/
def Stmt.isSub : Stmt L F → Bool
  | .subclass _ => true
  | _ => false

/-- How the registries of a class change. -/
theorem reg_step (h : List (Stmt L F)) (st : Stmt L F) (cls : ℕ) :
    (Classes.run (st :: h).reverse).reg cls =
      if 1 ≤ cls ∧ cls ≤ defined h then
        ((Classes.run h.reverse).reg cls).map fun r => match st with
          | .integral c l f => if c = cls then { r with integrals := dictSet r.integrals l f } else r
          | .inverse c f => if c = cls then { r with inverse := if r.inverse.isEmpty then r.inverse ++ [f] else r.inverse.set 0 f } else r
          | .subclass _ => r
      else if cls = defined h + 1 ∧ st.isSub = true then some ⟨[], []⟩ else none := by
  rw [reg_eq, reg_eq]
  obtain ⟨hlen, hattr⟩ := run_attr h
  rw [run_cons]
  cases st with
  | subclass p =>
    have hd : defined (Stmt.subclass p :: h) = defined h + 1 := rfl
    rw [hd]
    unfold Classes.step
    dsimp only
    by_cases hc : 1 ≤ cls ∧ cls ≤ defined h
    · rw [if_pos (by omega), if_pos hc, if_pos hc, List.getElem?_append_left (by omega)]
      simp
    · rw [if_neg hc]
      by_cases hc' : cls = defined h + 1
      · subst hc'
        rw [if_pos (by omega), if_pos ⟨rfl, rfl⟩, List.getElem?_append_right (by omega)]
        simp [hlen]
      · rw [if_neg (by omega), if_neg (by tauto)]
  | integral c l f =>
    have hd : defined (Stmt.integral c l f :: h) = defined h := rfl
    rw [hd]
    unfold Classes.step
    dsimp only
    rw [if_neg (c := cls = defined h + 1 ∧ (Stmt.integral c l f).isSub = true) (by simp [Stmt.isSub])]
    by_cases hc : 1 ≤ cls ∧ cls ≤ defined h
    · rw [if_pos hc, if_pos hc, if_pos hc, hattr]
      by_cases h1 : c ≤ defined h
      · rw [if_pos h1]
        by_cases h0 : c = 0
        · subst h0
          rw [if_pos rfl]
          have : (0 : ℕ) ≠ cls := by omega
          simp [this]
        · rw [if_neg h0]
          dsimp only
          rw [List.getElem?_modify]
          by_cases hcc : c = cls
          · subst hcc
            simp
          · have : c - 1 ≠ cls - 1 := by omega
            simp [this, hcc]
      · rw [if_neg h1]
        have : c ≠ cls := by omega
        simp [this]
    · rw [if_neg hc, if_neg hc]
  | inverse c f =>
    have hd : defined (Stmt.inverse c f :: h) = defined h := rfl
    rw [hd]
    unfold Classes.step
    dsimp only
    rw [if_neg (c := cls = defined h + 1 ∧ (Stmt.inverse c f).isSub = true) (by simp [Stmt.isSub])]
    by_cases hc : 1 ≤ cls ∧ cls ≤ defined h
    · rw [if_pos hc, if_pos hc, if_pos hc, hattr]
      by_cases h1 : c ≤ defined h
      · rw [if_pos h1]
        by_cases h0 : c = 0
        · subst h0
          rw [if_pos rfl]
          have : (0 : ℕ) ≠ cls := by omega
          simp [this]
        · rw [if_neg h0]
          dsimp only
          rw [List.getElem?_modify]
          by_cases hcc : c = cls
          · subst hcc
            simp
          · have : c - 1 ≠ cls - 1 := by omega
            simp [this, hcc]
      · rw [if_neg h1]
        have : c ≠ cls := by omega
        simp [this]
    · rw [if_neg hc, if_neg hc]

theorem lastIntegral_none (h : List (Stmt L F)) (cls : ℕ) (l : L) (hc : ¬ (1 ≤ cls ∧ cls ≤ defined h)) : lastIntegral cls l h = none := by
  induction h with
  | nil => rfl
  | cons st h ih =>
    cases st with
    | subclass p =>
      unfold lastIntegral
      exact ih (by unfold defined at hc; omega)
    | integral c l' f =>
      unfold defined at hc
      unfold lastIntegral
      rw [if_neg (by tauto)]
      exact ih hc
    | inverse c f =>
      unfold defined at hc
      unfold lastIntegral
      exact ih hc

theorem lastInverse_none (h : List (Stmt L F)) (cls : ℕ) (hc : ¬ (1 ≤ cls ∧ cls ≤ defined h)) : lastInverse cls h = none := by
  induction h with
  | nil => rfl
  | cons st h ih =>
    cases st with
    | subclass p =>
      unfold lastInverse
      exact ih (by unfold defined at hc; omega)
    | integral c l' f =>
      unfold defined at hc
      unfold lastInverse
      exact ih hc
    | inverse c f =>
      unfold defined at hc
      unfold lastInverse
      rw [if_neg (by tauto)]
      exact ih hc

/-- C197: after any statements, in any order, the analytic integral that a class uses for limits is the one that was last registered for
these limits with the class itself; it never comes from a base class, a subclass or another class. -/
theorem own_integrals (h : List (Stmt L F)) (cls : ℕ) (limits : L) :
    (Classes.run h.reverse).found cls limits = lastIntegral cls limits h := by
  induction h with
  | nil =>
    unfold Classes.found
    rw [reg_eq]
    simp [defined, lastIntegral]
    intro h1 h2
    omega
  | cons st h ih =>
    unfold Classes.found at ih ⊢
    rw [reg_step]
    by_cases hc : 1 ≤ cls ∧ cls ≤ defined h
    · rw [if_pos hc]
      cases st with
      | subclass p =>
        unfold lastIntegral
        rw [← ih]
        simp
      | inverse c f =>
        unfold lastIntegral
        rw [← ih]
        cases hr : (Classes.run h.reverse).reg cls with
        | none => rfl
        | some r =>
          dsimp only [Option.map_some, Option.bind_some]
          split <;> rfl
      | integral c l f =>
        unfold lastIntegral
        rw [← ih]
        cases hr : (Classes.run h.reverse).reg cls with
        | none =>
          exfalso
          rw [reg_eq, if_pos hc] at hr
          have := List.getElem?_eq_none_iff.1 hr
          have := (run_attr h).1
          omega
        | some r =>
          dsimp only [Option.map_some, Option.bind_some]
          by_cases hcc : c = cls
          · rw [if_pos hcc]
            dsimp only
            by_cases hl : l = limits
            · subst hl
              rw [if_pos ⟨hcc, rfl, hc⟩, dictGet_set_self]
            · rw [if_neg (by tauto), dictGet_set_ne _ _ _ _ (fun h => hl h.symm)]
          · rw [if_neg hcc, if_neg (by tauto)]
    · rw [if_neg hc]
      have : lastIntegral cls limits (st :: h) = none := by
        have h0 := lastIntegral_none h cls limits hc
        cases st with
        | subclass p => exact h0
        | inverse c f => exact h0
        | integral c l f =>
          unfold lastIntegral
          rw [if_neg (by tauto)]
          exact h0
      rw [this]
      split <;> rfl

/-- C197 for the inverse of the integral. -/
theorem own_inverse (h : List (Stmt L F)) (cls : ℕ) : (Classes.run h.reverse).foundInverse cls = lastInverse cls h := by
  induction h with
  | nil =>
    unfold Classes.foundInverse
    rw [reg_eq]
    simp [defined, lastInverse]
    intro h1 h2
    omega
  | cons st h ih =>
    unfold Classes.foundInverse at ih ⊢
    rw [reg_step]
    by_cases hc : 1 ≤ cls ∧ cls ≤ defined h
    · rw [if_pos hc]
      cases st with
      | subclass p =>
        unfold lastInverse
        rw [← ih]
        simp
      | integral c l f =>
        unfold lastInverse
        rw [← ih]
        cases hr : (Classes.run h.reverse).reg cls with
        | none => rfl
        | some r =>
          dsimp only [Option.map_some, Option.bind_some]
          split <;> rfl
      | inverse c f =>
        unfold lastInverse
        rw [← ih]
        cases hr : (Classes.run h.reverse).reg cls with
        | none =>
          exfalso
          rw [reg_eq, if_pos hc] at hr
          have := List.getElem?_eq_none_iff.1 hr
          have := (run_attr h).1
          omega
        | some r =>
          dsimp only [Option.map_some, Option.bind_some]
          by_cases hcc : c = cls
          · have hcd : c = cls ∧ 1 ≤ cls ∧ cls ≤ defined h := ⟨hcc, hc⟩
            rw [if_pos hcc, if_pos hcd]
            dsimp only
            cases hinv : r.inverse with
            | nil => simp
            | cons a as => simp
          · rw [if_neg hcc, if_neg (by tauto)]
    · rw [if_neg hc]
      have : lastInverse cls (st :: h) = none := by
        have h0 := lastInverse_none h cls hc
        cases st with
        | subclass p => exact h0
        | integral c l f => exact h0
        | inverse c f =>
          unfold lastInverse
          rw [if_neg (by tauto)]
          exact h0
      rw [this]
      split <;> rfl

/-- two classes, one a subclass of the other -/
example :
    let h : List (Stmt ℕ ℕ) := [.integral 2 7 12, .integral 1 7 11, .inverse 1 5, .integral 1 7 10, .subclass 1, .integral 2 7 9, .subclass 0]
    (Classes.run h.reverse).found 1 7 = some 11 ∧ (Classes.run h.reverse).found 2 7 = some 12 ∧
    (Classes.run h.reverse).foundInverse 1 = some 5 ∧ (Classes.run h.reverse).foundInverse 2 = none := by
  decide +kernel

end registries

/-! ## C198 -/

section simple

variable {V : Type}

theorem get_filter (kw : List (String × V)) (n k : String) (h : k ≠ n) : dictGet (kw.filter fun e => e.1 ≠ n) k = dictGet kw k := by
  induction kw with
  | nil => rfl
  | cons e kw ih =>
    unfold dictGet at ih ⊢
    rw [List.filter_cons]
    by_cases hn : e.1 = n
    · rw [if_neg (by simpa using hn), ih, List.find?_cons_of_neg (by rw [hn]; simpa using h.symm)]
    · rw [if_pos (by simpa using hn)]
      by_cases hk : e.1 = k
      · rw [List.find?_cons_of_pos (by simpa using hk), List.find?_cons_of_pos (by simpa using hk)]
      · rw [List.find?_cons_of_neg (by simpa using hk), List.find?_cons_of_neg (by simpa using hk)]
        exact ih

theorem set_new (d : List (String × V)) (k : String) (v : V) (h : k ∉ d.map (·.1)) : dictSet d k v = d ++ [(k, v)] := by
  induction d with
  | nil => rfl
  | cons e d ih =>
    unfold dictSet
    rw [List.map_cons, List.mem_cons] at h
    rw [if_neg (by tauto), ih (by tauto)]
    rfl

theorem filterMap_congr' {α β : Type} {f g : α → Option β} {l : List α} (h : ∀ a ∈ l, f a = g a) : l.filterMap f = l.filterMap g := by
  induction l with
  | nil => rfl
  | cons a l ih => rw [List.filterMap_cons, List.filterMap_cons, h a (by simp), ih fun b hb => h b (by simp [hb])]

theorem get_none (kw : List (String × V)) (k : String) : dictGet kw k = none ↔ k ∉ kw.map (·.1) := by
  unfold dictGet
  rw [Option.map_eq_none_iff, List.find?_eq_none, List.mem_map]
  simp only [decide_eq_true_eq, not_exists, not_and]

/-- What `popAll` does for distinct names. -/
theorem popAll_eq (ns : List String) (hns : ns.Nodup) (got kw : List (String × V)) (hgot : ∀ n ∈ ns, n ∉ got.map (·.1)) :
    popAll ns got kw =
      if ∀ n ∈ ns, n ∈ kw.map (·.1) then .ok (got ++ ns.filterMap (fun n => (dictGet kw n).map (n, ·)), kw.filter fun e => e.1 ∉ ns)
      else .error .missing := by
  induction ns generalizing got kw with
  | nil =>
    have : kw.filter (fun e => e.1 ∉ ([] : List String)) = kw := List.filter_eq_self.2 (by simp)
    rw [this]
    simp [popAll]
  | cons n ns ih =>
    rw [List.nodup_cons] at hns
    unfold popAll
    cases hv : dictGet kw n with
    | none =>
      dsimp only
      rw [if_neg]
      intro h
      exact (get_none kw n).1 hv (h n (by simp))
    | some v =>
      dsimp only
      have hn : n ∈ kw.map (·.1) := by
        by_contra hc
        rw [(get_none kw n).2 hc] at hv
        cases hv
      rw [ih hns.2]
      · have hcond : (∀ m ∈ ns, m ∈ (kw.filter fun e => e.1 ≠ n).map (·.1)) ↔ ∀ m ∈ n :: ns, m ∈ kw.map (·.1) := by
          constructor
          · intro h m hm
            rcases List.mem_cons.1 hm with rfl | hm
            · exact hn
            · obtain ⟨e, he, rfl⟩ := List.mem_map.1 (h m hm)
              exact List.mem_map_of_mem (List.mem_filter.1 he).1
          · intro h m hm
            obtain ⟨e, he, rfl⟩ := List.mem_map.1 (h m (by simp [hm]))
            refine List.mem_map_of_mem (List.mem_filter.2 ⟨he, ?_⟩)
            simp only [ne_eq, decide_not, Bool.not_eq_eq_eq_not, Bool.not_true, decide_eq_false_iff_not]
            rintro rfl
            exact hns.1 hm
        by_cases hc : ∀ m ∈ n :: ns, m ∈ kw.map (·.1)
        · rw [if_pos (hcond.2 hc), if_pos hc, set_new _ _ _ (hgot n (by simp)), List.filterMap_cons, hv]
          simp only [Option.map_some, List.append_assoc, List.singleton_append, Except.ok.injEq, Prod.mk.injEq]
          refine ⟨?_, ?_⟩
          · congr 2
            apply filterMap_congr'
            intro m hm
            rw [get_filter]
            rintro rfl
            exact hns.1 hm
          · rw [List.filter_filter]
            congr 1
            funext e
            simp [List.mem_cons, not_or, Bool.and_comm]
        · rw [if_neg (fun h => hc (hcond.1 h)), if_neg hc]
      · intro m hm
        rw [set_new _ _ _ (hgot n (by simp)), List.map_append, List.mem_append, not_or]
        refine ⟨hgot m (by simp [hm]), ?_⟩
        simp only [List.map_cons, List.map_nil, List.mem_singleton]
        rintro rfl
        exact hns.1 hm

/-- The arguments that a `ZPDF` names itself. -/
def ownArguments : List String := ["obs", "name", "label", "norm", "extended"]

/-- The other arguments of the base classes. -/
def baseArguments : List String := ["dtype", "autograd_params"]

/-- C198: a PDF of a class with `_PARAMS` is made exactly if all parameters and nothing else is given by keyword (apart from arguments of
the base classes); its parameters are then those of `_PARAMS`, in this order, with the values given.  A missing one gives a `ValueError`, an
unknown keyword an `AssertionError`. -/
theorem simple_params (params : List String) (hnd : params.Nodup) (hres : ∀ p ∈ params, p ∉ ownArguments ∧ p ∉ baseArguments ∧ p ≠ "params")
    (named : List (String × V)) (hnamed : named.map (·.1) = ownArguments) (kw : List (String × V))
    (hkw : ∀ e ∈ kw, e.1 ∉ ownArguments ∧ e.1 ≠ "params") :
    (makeSimple params named kw = .error .missing ↔ ∃ p ∈ params, p ∉ kw.map (·.1)) ∧
    (makeSimple params named kw = .error .notCaptured ↔
      (∀ p ∈ params, p ∈ kw.map (·.1)) ∧ ∃ k ∈ kw.map (·.1), k ∉ params ∧ k ∉ baseArguments) ∧
    (∀ got, makeSimple params named kw = .ok got ↔
      (∀ p ∈ params, p ∈ kw.map (·.1)) ∧ (∀ k ∈ kw.map (·.1), k ∈ params ∨ k ∈ baseArguments) ∧
      got = params.filterMap fun n => (dictGet kw n).map (n, ·)) ∧
    makeSimple params named kw ≠ .error .typeError := by
  have hmem : ∀ p ∈ params, (p ∈ (named ++ kw).map (·.1) ↔ p ∈ kw.map (·.1)) := by
    intro p hp
    rw [List.map_append, List.mem_append, hnamed]
    exact ⟨fun h => h.resolve_left (hres p hp).1, .inr⟩
  have hget : ∀ p ∈ params, dictGet (named ++ kw) p = dictGet kw p := by
    intro p hp
    have hno : p ∉ named.map (·.1) := by
      rw [hnamed]
      exact (hres p hp).1
    unfold dictGet
    rw [List.find?_append, List.find?_eq_none.2 (by
      intro e he
      simp only [decide_eq_true_eq]
      rintro rfl
      exact hno (List.mem_map_of_mem he))]
    rfl
  have hpop := popAll_eq params hnd [] (named ++ kw) (by simp)
  by_cases hall : ∀ p ∈ params, p ∈ kw.map (·.1)
  · rw [if_pos fun p hp => (hmem p hp).2 (hall p hp)] at hpop
    have hgot : params.filterMap (fun n => (dictGet (named ++ kw) n).map (n, ·)) = params.filterMap fun n => (dictGet kw n).map (n, ·) :=
      filterMap_congr' fun p hp => by rw [hget p hp]
    rw [List.nil_append, hgot] at hpop
    have hobs : "obs" ∈ ((named ++ kw).filter fun e => e.1 ∉ params).map (·.1) := by
      have : "obs" ∈ named.map (·.1) := by rw [hnamed]; decide
      obtain ⟨e, he, heq⟩ := List.mem_map.1 this
      rw [← heq]
      refine List.mem_map_of_mem (List.mem_filter.2 ⟨List.mem_append_left _ he, ?_⟩)
      simp only [decide_not, Bool.not_eq_eq_eq_not, Bool.not_true, decide_eq_false_iff_not]
      intro h
      refine (hres _ h).1 ?_
      rw [heq]
      decide
    have hpar : "params" ∉ ((named ++ kw).filter fun e => e.1 ∉ params).map (·.1) := by
      intro h
      obtain ⟨e, he, heq⟩ := List.mem_map.1 h
      have := (List.mem_filter.1 he).1
      rcases List.mem_append.1 this with h' | h'
      · have : e.1 ∈ named.map (·.1) := List.mem_map_of_mem h'
        rw [heq, hnamed] at this
        exact absurd this (by decide)
      · exact (hkw e h').2 heq
    have htaken : ∀ k, k ∈ taken ↔ k ∈ ownArguments ∨ k ∈ baseArguments := by
      intro k
      simp only [taken, ownArguments, baseArguments, List.mem_cons, List.not_mem_nil, or_false]
      tauto
    have hrest : (((named ++ kw).filter fun e => e.1 ∉ params).all fun e => e.1 ∈ taken) = true ↔
        ∀ k ∈ kw.map (·.1), k ∈ params ∨ k ∈ baseArguments := by
      rw [List.all_eq_true]
      constructor
      · intro h k hk
        obtain ⟨e, he, rfl⟩ := List.mem_map.1 hk
        by_cases hp : e.1 ∈ params
        · exact .inl hp
        · have := h e (List.mem_filter.2 ⟨List.mem_append_right _ he, by simpa using hp⟩)
          rw [decide_eq_true_eq, htaken] at this
          exact .inr (this.resolve_left (hkw e he).1)
      · intro h e he
        obtain ⟨he1, he2⟩ := List.mem_filter.1 he
        rw [decide_eq_true_eq, htaken]
        rcases List.mem_append.1 he1 with h' | h'
        · left
          have : e.1 ∈ named.map (·.1) := List.mem_map_of_mem h'
          rwa [hnamed] at this
        · right
          refine (h e.1 (List.mem_map_of_mem h')).resolve_left ?_
          simpa using he2
    unfold makeSimple
    rw [hpop]
    dsimp only
    rw [if_neg hpar, if_neg (not_not.2 hobs)]
    by_cases hr : ∀ k ∈ kw.map (·.1), k ∈ params ∨ k ∈ baseArguments
    · rw [if_pos (hrest.2 hr)]
      refine ⟨?_, ?_, ?_, by simp⟩
      · simp only [reduceCtorEq, false_iff]
        rintro ⟨p, hp, hn⟩
        exact hn (hall p hp)
      · simp only [reduceCtorEq, false_iff]
        rintro ⟨-, k, hk, h1, h2⟩
        exact (hr k hk).elim h1 h2
      · intro got
        simp only [Except.ok.injEq]
        exact ⟨fun h => ⟨hall, hr, h.symm⟩, fun h => h.2.2.symm⟩
    · rw [if_neg fun h => hr (hrest.1 h)]
      refine ⟨?_, ?_, ?_, by simp⟩
      · simp only [Except.error.injEq, reduceCtorEq, false_iff]
        rintro ⟨p, hp, hn⟩
        exact hn (hall p hp)
      · simp only [true_iff]
        refine ⟨hall, ?_⟩
        push Not at hr
        exact hr
      · intro got
        simp only [reduceCtorEq, false_iff]
        rintro ⟨-, h, -⟩
        exact hr h
  · rw [if_neg fun h => hall fun p hp => (hmem p hp).1 (h p hp)] at hpop
    unfold makeSimple
    rw [hpop]
    dsimp only
    refine ⟨?_, ?_, ?_, by simp⟩
    · simp only [true_iff]
      push Not at hall
      exact hall
    · simp only [Except.error.injEq, reduceCtorEq, false_iff]
      rintro ⟨h, -⟩
      exact hall h
    · intro got
      simp only [reduceCtorEq, false_iff]
      rintro ⟨h, -⟩
      exact hall h

/-- C198: the class itself is refused without `_PARAMS` or with something in it that is not a string, and accepted otherwise. -/
theorem simple_class (ps : Option (List PName)) :
    (defineSimple ps = .error .subclassing ↔ ps = none) ∧ (defineSimple ps = .ok () ↔ ∃ names : List String, ps = some (names.map .str)) := by
  cases ps with
  | none => simp [defineSimple]
  | some l =>
    unfold defineSimple
    dsimp only
    by_cases h : (l.any fun x => decide (x = .other)) = true
    · rw [if_pos h]
      simp only [Except.error.injEq, reduceCtorEq, false_iff, not_exists, Option.some.injEq, true_and]
      rintro names rfl
      simp at h
    · rw [if_neg h]
      simp only [reduceCtorEq, true_iff, true_and, Option.some.injEq]
      refine ⟨l.filterMap fun x => match x with | .str s => some s | .other => none, ?_⟩
      simp only [Bool.not_eq_true, List.any_eq_false, decide_eq_true_eq] at h
      induction l with
      | nil => rfl
      | cons x l ih =>
        have ih := ih fun y hy => h y (by simp [hy])
        cases x with
        | other => exact absurd rfl (h .other (by simp))
        | str s => rw [List.filterMap_cons]; dsimp only; rw [List.map_cons, ← ih]

/-- two parameters -/
example :
    let named : List (String × ℕ) := [("obs", 0), ("name", 0), ("label", 0), ("norm", 0), ("extended", 0)]
    makeSimple ["mu", "sigma"] named [("sigma", 2), ("mu", 1)] = .ok [("mu", 1), ("sigma", 2)] ∧
    makeSimple ["mu", "sigma"] named [("sigma", 2)] = .error .missing ∧
    makeSimple ["mu", "sigma"] named [("sigma", 2), ("mu", 1), ("nu", 3)] = .error .notCaptured := by
  decide +kernel

end simple

/-! ## C200 -/

/-- A constructor that has its observables from the arguments and, if a yield is given by keyword, uses it. -/
def UsesExtended (make : List Arg → List (String × Arg) → Except Err Unb) : Prop :=
  ∀ args kw p, make args kw = .ok p → (getArg kw "extended" ≠ .none → getArg kw "extended" ≠ .false → p.yield = some (getArg kw "extended")) ∧
    (getArg kw "extended" = .false → p.yield = none) ∧ (p.yield ≠ some .none ∧ p.yield ≠ some .false)

/-- C200, in part: a PDF class called with binned observables as the keyword `obs` gives a binned PDF over these; its yield is the one the
unbinned PDF with the same arguments has, its normalisation the one given or the observables.  Missing: positional observables, limits
as `norm`, the name. -/
theorem binned_obs_partial (make : List Arg → List (String × Arg) → Except Err Unb) (hmake : UsesExtended make) (args : List Arg) (s : ObsSpace)
    (b : ℕ) (hb : s.binning = some b) (kw : List (String × Arg)) (p : Unb)
    (hp : make args (dictSet kw "obs" (.space { s with binning := none })) = .ok p)
    (hnorm : getArg kw "norm" = .none ∨ ∃ n, getArg kw "norm" = .space n) :
    ∃ q, metaCall make args (.space s) kw = .ok (.binned q) ∧ q.space = s ∧ q.yield = p.yield ∧
      (getArg kw "norm" = .none → q.norm = s) ∧ (∀ n, getArg kw "norm" = .space n → q.norm = n) ∧
      q.name = getArg kw "name" ∧ (getArg kw "label" ≠ .none → q.label = some (getArg kw "label")) := by
  have hget : ∀ k, k ≠ "obs" → getArg (dictSet kw "obs" (.space { s with binning := none })) k = getArg kw k := by
    intro k hk
    unfold getArg
    rw [dictGet_set_ne _ _ _ _ hk]
  have h := hmake args _ p hp
  rw [hget "extended" (by decide)] at h
  have hext : binYield p.yield (getArg kw "extended") = p.yield := by
    unfold binYield
    dsimp only
    obtain ⟨h1, h2, h3, h4⟩ := h
    cases he : getArg kw "extended" with
    | none =>
      cases hy : p.yield with
      | none => simp
      | some y =>
        rw [hy] at h3 h4
        dsimp only
        rw [if_neg]
        rintro (rfl | rfl)
        · exact h3 rfl
        · exact h4 rfl
    | false =>
      rw [h2 he]
      simp
    | space x =>
      rw [h1 (by rw [he]; simp) (by rw [he]; simp), he]
      simp
    | val v =>
      rw [h1 (by rw [he]; simp) (by rw [he]; simp), he]
      simp
  unfold metaCall
  dsimp only
  rw [hb]
  dsimp only
  rw [hp]
  dsimp only
  rw [hget "extended" (by decide), hget "norm" (by decide), hget "name" (by decide), hget "label" (by decide)]
  unfold toBinned
  dsimp only
  rw [hb, if_neg (by simp), hext]
  rcases hnorm with hn | ⟨n, hn⟩
  · rw [hn]
    refine ⟨_, rfl, rfl, rfl, fun _ => rfl, fun n h => (by cases h), rfl, fun h => if_neg h⟩
  · rw [hn]
    refine ⟨_, rfl, rfl, rfl, fun h => (by cases h), fun n' h => (by cases h; rfl), rfl, fun h => if_neg h⟩

/-- A constructor like that of `Gauss`, with the observables as keyword or third argument. -/
def exMake (args : List Arg) (kw : List (String × Arg)) : Except Err Unb :=
  match (dictGet kw "obs").or args[2]? with
  | some (.space s) =>
    .ok ⟨s, if getArg kw "extended" = .none ∨ getArg kw "extended" = .false then none else some (getArg kw "extended"),
      (dictGet kw "name").getD (.val 0)⟩
  | _ => .error .typeError

/-- an extended PDF with binned observables -/
example : UsesExtended exMake ∧
    metaCall exMake [.val 1, .val 2] (.space ⟨7, some 10⟩) [("extended", .val 100)] =
      .ok (.binned ⟨⟨7, some 10⟩, some (.val 100), ⟨7, some 10⟩, .none, none⟩) := by
  refine ⟨?_, by decide +kernel⟩
  intro args kw p hp
  unfold exMake at hp
  split at hp
  · cases hp
    dsimp only
    refine ⟨fun h1 h2 => if_neg (by tauto), fun h => if_pos (.inr h), ?_⟩
    split
    · simp
    · rename_i h
      simpa using h
  · cases hp

/-- C200 is violated by positional observables: the PDF is an unbinned PDF, with a binned space. -/
theorem positional_obs_violated :
    metaCall exMake [.val 1, .val 2, .space ⟨7, some 10⟩] .none [] = .ok (.unbinned ⟨⟨7, some 10⟩, none, .val 0⟩) := by
  decide +kernel

/-- C200 is violated by a normalisation range given by its limits, which is accepted with unbinned observables. -/
theorem norm_limits_violated :
    metaCall exMake [.val 1, .val 2] (.space ⟨7, some 10⟩) [("norm", .val 5)] = .error .valueError ∧
    metaCall exMake [.val 1, .val 2] (.space ⟨7, none⟩) [("norm", .val 5)] = .ok (.unbinned ⟨⟨7, none⟩, none, .val 0⟩) := by
  decide +kernel

/-- C200 is violated for the name: it is said to be created from the name of the unbinned PDF, but is `None`. -/
theorem no_name_violated :
    ∃ q, metaCall exMake [.val 1, .val 2] (.space ⟨7, some 10⟩) [] = .ok (.binned q) ∧ q.name = .none :=
  ⟨⟨⟨7, some 10⟩, none, ⟨7, some 10⟩, .none, none⟩, by decide +kernel, rfl⟩

end Zfit.Own
