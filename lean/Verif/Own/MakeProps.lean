import Verif.Own.MakeModel
import Verif.Common.Except
import Mathlib.Tactic.Common

/-!
# C201-C203: PDFs made from a PDF
-/

namespace Zfit.Own

open Zfit

/-! ## C201 -/

section yield

variable {P : Type}

theorem mem_set (d : List (String × P)) (k : String) (p : P) : k ∈ (dictSet d k p).map (·.1) := by
  induction d with
  | nil => simp [dictSet]
  | cons e d ih =>
    unfold dictSet
    split
    · rename_i h
      simp [h]
    · simp only [List.map_cons, List.mem_cons]
      exact .inr ih

theorem mem_move (d : List (String × P)) (old new : String) (h : old ∈ d.map (·.1)) : new ∈ (moveKey d old new).map (·.1) := by
  unfold moveKey
  split
  · exact mem_set _ _ _
  · rename_i hn
    exfalso
    unfold dictGet at hn
    rw [Option.map_eq_none_iff, List.find?_eq_none] at hn
    obtain ⟨e, he, heq⟩ := List.mem_map.1 h
    exact hn e he (by simpa using heq)

/-- Once the loop has found its name among the parameters it never ends. -/
theorem renameLoop_forever (fuel : ℕ) (key : String) (d : List (String × P)) (h : key ∈ d.map (·.1)) : renameLoop fuel key d = none := by
  induction fuel generalizing key d with
  | zero => rfl
  | succ fuel ih =>
    unfold renameLoop
    rw [if_pos h]
    exact ih _ _ (mem_move _ _ _ h)

/-- C201, in part: the yield of a truncated PDF depends on all parameters of the PDF, and on its yield, and on each only once; this needs
one round.  Missing: PDFs with a parameter of the name `wrapped_yield`, see below. -/
theorem truncated_yield_partial (fuel : ℕ) (params : List (String × P)) (yieldName : String) (yield : P)
    (hw : "wrapped_yield" ∉ params.map (·.1)) (hy : yieldName ≠ "wrapped_yield") :
    ∃ d, yieldArguments (fuel + 1) params yieldName yield = some d ∧ dictGet d "wrapped_yield" = some yield ∧
      (∀ e ∈ params, e.1 ≠ yieldName → e ∈ d) ∧ (∀ e ∈ d, e = ("wrapped_yield", yield) ∨ (e ∈ params ∧ e.1 ≠ yieldName)) := by
  have hnew : ∀ d : List (String × P), "wrapped_yield" ∉ d.map (·.1) → dictSet d "wrapped_yield" yield = d ++ [("wrapped_yield", yield)] := by
    intro d
    induction d with
    | nil => intro; rfl
    | cons e d ih =>
      intro h
      rw [List.map_cons, List.mem_cons] at h
      unfold dictSet
      rw [if_neg (by tauto), ih (by tauto)]
      rfl
  have hget : ∀ d : List (String × P), "wrapped_yield" ∉ d.map (·.1) → dictGet (d ++ [("wrapped_yield", yield)]) "wrapped_yield" = some yield := by
    intro d hd
    unfold dictGet
    rw [List.find?_append, List.find?_eq_none.2 (by
      intro e he
      simp only [decide_eq_true_eq]
      intro h
      exact hd (by rw [← h]; exact List.mem_map_of_mem he))]
    simp
  unfold yieldArguments renameLoop
  rw [if_neg hw, Option.map_some]
  dsimp only
  rw [hnew params hw]
  refine ⟨_, rfl, ?_⟩
  have key : ∀ e : String × P, (e ∈ (params.filter fun e => e.1 ≠ yieldName) ++ [("wrapped_yield", yield)]) ↔
      (e ∈ params ∧ e.1 ≠ yieldName) ∨ e = ("wrapped_yield", yield) := by
    intro e
    simp [List.mem_filter]
  by_cases hin : yieldName ∈ (params ++ [("wrapped_yield", yield)]).map (·.1)
  · rw [if_pos hin, List.filter_append]
    have : [("wrapped_yield", yield)].filter (fun e => e.1 ≠ yieldName) = [("wrapped_yield", yield)] := by
      simp [List.filter_cons, hy.symm]
    rw [this]
    refine ⟨hget _ ?_, fun e he hne => (key e).2 (.inl ⟨he, hne⟩), fun e he => ((key e).1 he).symm⟩
    intro h
    obtain ⟨e, he, heq⟩ := List.mem_map.1 h
    exact hw (by rw [← heq]; exact List.mem_map_of_mem (List.mem_filter.1 he).1)
  · rw [if_neg hin]
    refine ⟨hget _ hw, fun e he _ => List.mem_append_left _ he, ?_⟩
    intro e he
    rcases List.mem_append.1 he with h | h
    · refine .inr ⟨h, ?_⟩
      rintro rfl
      exact hin (List.mem_map_of_mem he)
    · exact .inl (by simpa using h)

/-- a yield that is itself a parameter -/
example : yieldArguments 1 [("mu", 1), ("n_sig", 2), ("sigma", 3)] "n_sig" 2 = some [("mu", 1), ("sigma", 3), ("wrapped_yield", 2)] := by
  decide +kernel

/-- C201 is violated by an extended PDF with a parameter called `wrapped_yield`: the loop that looks for a free name renames the parameter to
the name it looks for next (truncated.py:181-184), so that `TruncatedPDF` never returns, whatever the number of rounds. -/
theorem rename_forever_violated (fuel : ℕ) : yieldArguments fuel [("mu", 1), ("wrapped_yield", 2)] "n_sig" 3 = none := by
  unfold yieldArguments
  rw [renameLoop_forever fuel _ _ (by decide)]
  rfl

end yield

/-! ## C202 -/

section projection

variable {Lim : Type}

theorem get_of_mem (own : List (String × Lim)) (n : String) (h : n ∈ own.map (·.1)) : ∃ v, dictGet own n = some v ∧ (n, v) ∈ own := by
  cases hv : dictGet own n with
  | none =>
    exfalso
    unfold dictGet at hv
    rw [Option.map_eq_none_iff, List.find?_eq_none] at hv
    obtain ⟨e, he, heq⟩ := List.mem_map.1 h
    exact hv e he (by simpa using heq)
  | some v =>
    refine ⟨v, rfl, ?_⟩
    unfold dictGet at hv
    obtain ⟨e, he, heq⟩ := Option.map_eq_some_iff.1 hv
    have := List.mem_of_find?_eq_some he
    have h2 := List.find?_some he
    simp only [decide_eq_true_eq] at h2
    rw [← heq, ← h2]
    exact this

theorem take_names (own : List (String × Lim)) (names : List String) (h : ∀ n ∈ names, n ∈ own.map (·.1)) :
    (names.filterMap fun n => (dictGet own n).map (n, ·)).map (·.1) = names ∧
      ∀ e ∈ names.filterMap fun n => (dictGet own n).map (n, ·), e ∈ own := by
  induction names with
  | nil => simp
  | cons n names ih =>
    obtain ⟨v, hv, hm⟩ := get_of_mem own n (h n (by simp))
    have ih := ih fun m hm => h m (by simp [hm])
    rw [List.filterMap_cons, hv]
    simp only [Option.map_some, List.map_cons, ih.1, true_and, List.mem_cons, forall_eq_or_imp]
    exact ⟨hm, ih.2⟩

theorem takeObs_eq (own : List (String × Lim)) (names : List String) (h : ∀ n ∈ names, n ∈ own.map (·.1)) (hne : names ≠ []) :
    ∃ l, takeObs own names = .ok l ∧ l.map (·.1) = names ∧ ∀ e ∈ l, e ∈ own := by
  obtain ⟨h1, h2⟩ := take_names own names h
  refine ⟨_, ?_, h1, h2⟩
  unfold takeObs
  dsimp only
  rw [if_neg]
  intro he
  rw [List.isEmpty_iff] at he
  rw [he] at h1
  exact hne h1.symm

/-- The limits of a projection are those given, or the own ones. -/
def LimitsFrom (own : List (String × Lim)) (g : Option (Given Lim)) (l : List (String × Lim)) : Prop :=
  match g with
  | some (.space s) => l = s
  | _ => ∀ e ∈ l, e ∈ own

theorem withLimits_eq (own : List (String × Lim)) (g : Given Lim) (h : ∀ n ∈ g.obs, n ∈ own.map (·.1)) (hne : g.obs ≠ []) :
    ∃ l, withLimits own g = .ok l ∧ l.map (·.1) = g.obs ∧ LimitsFrom own (some g) l := by
  cases g with
  | names l => exact takeObs_eq own l h hne
  | space l => exact ⟨l, rfl, rfl, rfl⟩

theorem complement_empty (own : List (String × Lim)) (g : List String) (h : own.map (·.1) ⊆ g) :
    (own.map (·.1)).filter (fun o => o ∉ g) = [] := by
  rw [List.filter_eq_nil_iff]
  intro a ha
  simpa using h ha

/-- C202, in part: if only the observables to project on, or only those to integrate over, are given (some of those of the PDF, not all), the
projection integrates over exactly the others; the limits are those given, and those of the PDF otherwise.  If all are given there is an
exception.  Missing: both given, and observables that the PDF does not have, see below. -/
theorem projection_partial (own : List (String × Lim)) (g : Given Lim) (hsub : ∀ n ∈ g.obs, n ∈ own.map (·.1)) (hne : g.obs ≠ []) :
    (own.map (·.1) ⊆ g.obs → project own none (some g) = .error .valueError ∧ project own (some g) none = .error .obsIncompatible) ∧
    (¬ own.map (·.1) ⊆ g.obs → ∃ l rest, project own none (some g) = .ok (l, rest) ∧ project own (some g) none = .ok (rest, l) ∧
      l.map (·.1) = g.obs ∧ (∀ n, n ∈ rest.map (·.1) ↔ n ∈ own.map (·.1) ∧ n ∉ l.map (·.1)) ∧ LimitsFrom own (some g) l ∧ ∀ e ∈ rest, e ∈ own) := by
  obtain ⟨l, hl, hnames, hfrom⟩ := withLimits_eq own g hsub hne
  refine ⟨?_, ?_⟩
  · intro hall
    have hemp := complement_empty own g.obs hall
    unfold project
    refine ⟨?_, ?_⟩
    · dsimp only
      rw [hemp]
      rfl
    · dsimp only
      rw [hl]
      dsimp only
      rw [hnames, hemp]
      rfl
  · intro hall
    obtain ⟨n, hn, hno⟩ : ∃ n, n ∈ own.map (·.1) ∧ n ∉ g.obs := by
      by_contra hc
      push Not at hc
      exact hall hc
    have hcne : (own.map (·.1)).filter (fun o => o ∉ g.obs) ≠ [] := by
      intro h
      rw [List.filter_eq_nil_iff] at h
      exact h n hn (by simpa using hno)
    obtain ⟨rest, hr, hrn, hro⟩ := takeObs_eq own _ (fun m hm => (List.mem_filter.1 hm).1) hcne
    refine ⟨l, rest, ?_, ?_, hnames, ?_, hfrom, hro⟩
    · unfold project
      dsimp only
      rw [if_neg (by rw [List.isEmpty_iff]; exact hcne), hr, hl]
    · unfold project
      dsimp only
      rw [hl]
      dsimp only
      rw [hnames, hr]
    · intro m
      rw [hrn, hnames, List.mem_filter]
      simp

/-- C202: whatever is given, an observable is never both projected on and integrated over, for distinct names of observables. -/
theorem projection_disjoint (own : List (String × Lim)) (limits obs : Option (Given Lim)) (on over : List (String × Lim))
    (h : project own limits obs = .ok (on, over)) : ∀ n ∈ on.map (·.1), n ∉ over.map (·.1) := by
  have htake : ∀ names l, takeObs own names = .ok l → ∀ n ∈ l.map (·.1), n ∈ names := by
    intro names l hl n hn
    unfold takeObs at hl
    dsimp only at hl
    split at hl
    · cases hl
    · cases hl
      obtain ⟨e, he, rfl⟩ := List.mem_map.1 hn
      obtain ⟨m, hm, heq⟩ := List.mem_filterMap.1 he
      obtain ⟨v, _, rfl⟩ := Option.map_eq_some_iff.1 heq
      exact hm
  have hwith : ∀ g l, withLimits own g = .ok l → ∀ n ∈ l.map (·.1), n ∈ g.obs := by
    intro g l hl n hn
    cases g with
    | names ns => exact htake _ _ hl n hn
    | space s => cases hl; exact hn
  unfold project at h
  split at h
  · cases h
  · dsimp only at h
    split at h
    · cases h
    · split at h
      · rename_i over' on' h1 h2
        cases h
        intro n hn hn'
        have := htake _ _ h1 n hn'
        rw [List.mem_filter] at this
        simp only [decide_not, Bool.not_eq_eq_eq_not, Bool.not_true, decide_eq_false_iff_not] at this
        exact this.2 (hwith _ _ h2 n hn)
      · cases h
      · cases h
  · split at h
    · cases h
    · split at h
      · cases h
      · rename_i over' h1 _ on' h2
        cases h
        intro n hn hn'
        have := htake _ _ h2 n hn
        rw [List.mem_filter] at this
        simp only [decide_not, Bool.not_eq_eq_eq_not, Bool.not_true, decide_eq_false_iff_not] at this
        exact this.2 hn'
  · split at h
    · split at h
      · cases h
      · rename_i hno
        cases h
        intro n hn hn'
        obtain ⟨e, he, rfl⟩ := List.mem_map.1 hn
        apply hno
        rw [List.any_eq_true]
        exact ⟨e, he, by simpa using hn'⟩
    · cases h
    · cases h

/-- C202: the yield of the projection is that given, or that of the PDF; none if `False` is given. -/
theorem projection_yield (own : Option ℕ) (e : ExtArg) :
    (∀ p, e = .yield p → projYield own e = some p) ∧ (e = .false → projYield own e = none) ∧ (e = .none ∨ e = .true → projYield own e = own) := by
  refine ⟨?_, ?_, ?_⟩
  · rintro p rfl
    rfl
  · rintro rfl
    rfl
  · rintro (rfl | rfl)
    · unfold projYield
      cases own <;> rfl
    · rfl

/-- three observables -/
example :
    let own := [("x", 1), ("y", 2), ("z", 3)]
    project own none (some (.names ["y"])) = .ok ([("y", 2)], [("x", 1), ("z", 3)]) ∧
    project own (some (.space [("x", 9)])) none = .ok ([("y", 2), ("z", 3)], [("x", 9)]) ∧
    project own (some (.names ["x"])) (some (.names ["x", "y"])) = .error .valueError := by
  decide +kernel

/-- C202 is violated if both are given and an observable is in neither: the projection is made, without integrating over it. -/
theorem neither_violated :
    project [("x", 1), ("y", 2), ("z", 3)] (some (.names ["z"])) (some (.names ["x"])) = .ok ([("x", 1)], [("z", 3)]) := by
  decide +kernel

/-- C202 is violated by observables that the PDF does not have, given with limits: all its own are integrated over. -/
theorem foreign_violated :
    project [("x", 1), ("y", 2)] none (some (.space [("t", 9)])) = .ok ([("t", 9)], [("x", 1), ("y", 2)]) := by
  decide +kernel

end projection

/-! ## C203 -/

/-- C203, in part: a PDF as a function has the value of the PDF everywhere, also if it raises, and, if the PDF is not built of others, the
same parameters.  Missing: the parameters of the others, see below. -/
theorem as_func_partial {X V : Type} (t : Tree) (pdf : X → Except Err V) :
    (∀ x, (asFunc t pdf).func x = pdf x) ∧ (∀ own, t = .mk own .nil → (asFunc t pdf).params = t.params) ∧
      ∀ p ∈ (asFunc t pdf).params, p ∈ t.params := by
  refine ⟨?_, ?_, ?_⟩
  · intro x
    unfold asFunc
    dsimp only
    split
    · rename_i h
      rw [h]
    · rfl
  · rintro own rfl
    simp [asFunc, Tree.params, Trees.params]
  · obtain ⟨own, ds⟩ := t
    intro p hp
    simp only [asFunc] at hp
    simp [Tree.params, hp]

/-- a PDF with two parameters -/
example : (asFunc (X := ℕ) (V := ℕ) (.mk [1, 2] .nil) fun x => .ok x).params = [1, 2] := rfl

/-- C203 is violated by a sum: as a function it does not have the parameters of the PDFs that are added, although it depends on them. -/
theorem as_func_violated :
    let sum : Tree := .mk [0] (.cons (.mk [1, 2] .nil) (.cons (.mk [3] .nil) .nil))
    (asFunc (X := ℕ) (V := ℕ) sum fun x => .ok x).params = [0] ∧ sum.params = [0, 1, 2, 3] := by
  decide +kernel

end Zfit.Own
