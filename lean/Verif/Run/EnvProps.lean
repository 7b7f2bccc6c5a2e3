import Verif.Run.EnvModel
import Verif.Run.ModeProps
import Mathlib.Tactic.Common

/-!
# The environment variables at import (C313)

* `import_accepted_iff`, `import_mode_partial`, `import_warnings`, `tf_warnings`
* `mode_graph_ignored_violated`, `graph_mode_not_decisive_violated`, `old_names_disagree_violated`, `deprecation_warning_violated`
-/

namespace Zfit.Run

open Zfit

/-- The variables that are read as numbers: of the two oldest names the second counts only if the first is not set. -/
def Read (env : Env) (text : String) : Prop :=
  env "ZFIT_DO_JIT" = some text ∨ (env "ZFIT_DO_JIT" = none ∧ env "ZFIT_EXPERIMENTAL_DO_JIT" = some text) ∨ env "ZFIT_GRAPH_MODE" = some text

/-- Everything runs eagerly: what `run.set_graph_mode(False)` is documented to do. -/
structure Eager (s : RS) : Prop where
  mode : s.graph = .off
  backend : s.eager = true
  functions : ∀ k b, s.jit k = some b → b = false

theorem eager_off (s : RS) : Eager (setGraph .off true s).1 :=
  ⟨rfl, rfl, fun k b h => setAll_some false s.jit k b h⟩

theorem setAll_twice (e : Bool) (jit : ℕ → Option Bool) : setAll e (setAll e jit) = setAll e jit := by
  funext k
  simp [setAll, Function.comp_def]

/-- C313: the import fails if and only if one of the variables read is not the text of an integer, and then with a `ValueError`. -/
theorem import_accepted_iff (parse : String → Option Int) (env : Env) (s : RS) :
    ((importZfit parse env s).error = none ↔ ∀ t, Read env t → parse t ≠ none) ∧
    ((importZfit parse env s).error = none ∨ (importZfit parse env s).error = some .valueError) := by
  simp only [importZfit, maybeDisableJit, Read, offIf, saysOff]
  rcases h1 : env "ZFIT_DO_JIT" with _ | a <;> rcases h2 : env "ZFIT_EXPERIMENTAL_DO_JIT" with _ | b <;>
    rcases h3 : env "ZFIT_GRAPH_MODE" with _ | c <;> simp [setGraph]
  all_goals
    first
    | (rcases ha : parse a with _ | n <;> simp [ha])
    | (rcases hb : parse b with _ | n <;> simp [hb])
    | skip
  all_goals
    first
    | (rcases hc : parse c with _ | m <;> simp [hc])
    | skip
  all_goals
    first
    | (by_cases hn : n = 0 <;> by_cases hm : m = 0 <;> simp [hn, hm])
    | (by_cases hn : n = 0 <;> simp [hn])
    | (by_cases hm : m = 0 <;> simp [hm])
  all_goals
    first
    | (rintro t (rfl | rfl) <;> simp [*])
    | simp [*]

/-- C313: an import that succeeds starts in eager mode, everywhere, if one of the variables read is zero, and otherwise in the mode that is the
default.  Missing from the full claim: the oldest name of `ZFIT_GRAPH_MODE` (`mode_graph_ignored_violated`), which variable decides if they
disagree (`graph_mode_not_decisive_violated`, `old_names_disagree_violated`). -/
theorem import_mode_partial (parse : String → Option Int) (env : Env) (s : RS) (hok : (importZfit parse env s).error = none) :
    ((∃ t, Read env t ∧ parse t = some 0) → Eager (importZfit parse env s).state) ∧
    ((¬∃ t, Read env t ∧ parse t = some 0) → (importZfit parse env s).state = s) := by
  have hr := (import_accepted_iff parse env s).1.1 hok
  have key : (∃ t, Read env t ∧ parse t = some 0) → (importZfit parse env s).state = (setGraph .off true s).1 := by
    rintro ⟨t, ht, hz⟩
    clear hok
    simp only [Read] at hr ht
    simp only [importZfit, maybeDisableJit, offIf, saysOff]
    rcases h1 : env "ZFIT_DO_JIT" with _ | a <;> rcases h2 : env "ZFIT_EXPERIMENTAL_DO_JIT" with _ | b <;>
      rcases h3 : env "ZFIT_GRAPH_MODE" with _ | c <;> simp only [h1, h2, h3] at hr ht ⊢
    all_goals simp only [Option.some.injEq, reduceCtorEq, true_and, false_and, or_false, false_or] at hr ht
    all_goals
      first
      | (have ha := hr a (by simp); obtain ⟨n, hn⟩ := Option.ne_none_iff_exists'.1 ha; rw [hn])
      | (have hb := hr b (by simp); obtain ⟨n, hn⟩ := Option.ne_none_iff_exists'.1 hb; rw [hn])
      | skip
    all_goals
      first
      | (have hc := hr c (by simp); obtain ⟨m, hm⟩ := Option.ne_none_iff_exists'.1 hc; rw [hm])
      | skip
    all_goals
      first
      | (rcases ht with rfl | rfl <;> by_cases hn0 : n = 0 <;> by_cases hm0 : m = 0 <;> simp_all [setGraph, setAll_twice])
      | (subst ht; simp_all [setGraph])
  constructor
  · intro h
    rw [key h]
    exact eager_off s
  · intro h
    simp only [importZfit, maybeDisableJit, offIf, saysOff]
    simp only [Read] at hr h
    rcases h1 : env "ZFIT_DO_JIT" with _ | a <;> rcases h2 : env "ZFIT_EXPERIMENTAL_DO_JIT" with _ | b <;>
      rcases h3 : env "ZFIT_GRAPH_MODE" with _ | c <;> simp only [h1, h2, h3] at hr h ⊢
    all_goals simp only [Option.some.injEq, reduceCtorEq, true_and, false_and, or_false, false_or] at hr h
    all_goals
      first
      | (have ha := hr a (by simp); have ha0 : parse a ≠ some 0 := fun e => h ⟨a, by simp, e⟩
         obtain ⟨n, hn⟩ := Option.ne_none_iff_exists'.1 ha; rw [hn] at ha0 ⊢)
      | (have hb := hr b (by simp); have hb0 : parse b ≠ some 0 := fun e => h ⟨b, by simp, e⟩
         obtain ⟨n, hn⟩ := Option.ne_none_iff_exists'.1 hb; rw [hn] at hb0 ⊢)
      | skip
    all_goals
      first
      | (have hc := hr c (by simp); have hc0 : parse c ≠ some 0 := fun e => h ⟨c, by simp, e⟩
         obtain ⟨m, hm⟩ := Option.ne_none_iff_exists'.1 hc; rw [hm] at hc0 ⊢)
      | skip
    all_goals simp_all

/-- The warnings about the variables of TensorFlow: unless the variable is "0" its warnings are suppressed, with a notice exactly if the variable
is not set. -/
theorem tf_warnings (parse : String → Option Int) (env : Env) (s : RS) :
    ((importZfit parse env s).tfQuiet = false ↔ env "ZFIT_DISABLE_TF_WARNINGS" = some "0") ∧
    (EnvWarn.tfSuppressed ∈ (importZfit parse env s).warnings ↔ env "ZFIT_DISABLE_TF_WARNINGS" = none) := by
  have hj : EnvWarn.tfSuppressed ∉ jitWarnings env := by
    unfold jitWarnings
    split <;> split <;> simp
  simp only [importZfit, maybeDisableWarnings]
  rcases h : env "ZFIT_DISABLE_TF_WARNINGS" with _ | t
  · simp
  · by_cases ht : t = "0" <;> simp [ht, hj]

/-- C313, which warnings are given: `ZFIT_MODE_GRAPH` is called deprecated exactly if it is set.  Missing from the full claim: the other two
deprecated variables (`deprecation_warning_violated`). -/
theorem deprecation_warning_partial (parse : String → Option Int) (env : Env) (s : RS) :
    EnvWarn.deprecated "ZFIT_MODE_GRAPH" ∈ (importZfit parse env s).warnings ↔ (env "ZFIT_MODE_GRAPH").isSome = true := by
  have hw : EnvWarn.deprecated "ZFIT_MODE_GRAPH" ∉ (maybeDisableWarnings env).1 := by
    unfold maybeDisableWarnings
    split
    · simp
    · split <;> simp
  simp only [importZfit, List.mem_append, hw, false_or, jitWarnings]
  cases h : (env "ZFIT_MODE_GRAPH").isSome <;> simp

/-! ### Violations -/

/-- An environment with the variables listed. -/
def envOf (l : List (String × String)) : Env := fun v => dictGet l v

/-- Violation of C313: `ZFIT_MODE_GRAPH`, whose warning says to use `ZFIT_GRAPH_MODE` instead, has no effect at all, whatever its text. -/
theorem mode_graph_ignored_violated (parse : String → Option Int) (text : String) (s : RS) :
    (importZfit parse (envOf [("ZFIT_MODE_GRAPH", text)]) s).state = s ∧
    (importZfit parse (envOf [("ZFIT_MODE_GRAPH", text)]) s).error = none ∧
    EnvWarn.deprecated "ZFIT_MODE_GRAPH" ∈ (importZfit parse (envOf [("ZFIT_MODE_GRAPH", text)]) s).warnings := by
  refine ⟨rfl, rfl, (deprecation_warning_partial parse _ s).2 rfl⟩

/-- Violation of C313: `ZFIT_GRAPH_MODE` does not decide: with the deprecated variable at zero everything is eager, although the new one asks for
graphs. -/
theorem graph_mode_not_decisive_violated (parse : String → Option Int) (h0 : parse "0" = some 0) (h1 : parse "1" = some 1) (s : RS) :
    Eager (importZfit parse (envOf [("ZFIT_GRAPH_MODE", "1"), ("ZFIT_DO_JIT", "0")]) s).state := by
  have hr : ∀ t, Read (envOf [("ZFIT_GRAPH_MODE", "1"), ("ZFIT_DO_JIT", "0")]) t → parse t ≠ none := by
    intro t ht
    simp only [Read, envOf, dictGet] at ht
    rcases ht with h | h | h
    · have : t = "0" := by simpa using h.symm
      rw [this, h0]; simp
    · simp at h
    · have : t = "1" := by simpa using h.symm
      rw [this, h1]; simp
  exact (import_mode_partial parse _ s ((import_accepted_iff parse _ s).1.2 hr)).1 ⟨"0", .inl (by simp [envOf, dictGet]), h0⟩

/-- Violation of C313: `ZFIT_EXPERIMENTAL_DO_JIT=0` has no effect, and is not even looked at, if `ZFIT_DO_JIT` is set to something else. -/
theorem old_names_disagree_violated (parse : String → Option Int) (h1 : parse "1" = some 1) (text : String) (s : RS) :
    (importZfit parse (envOf [("ZFIT_EXPERIMENTAL_DO_JIT", text), ("ZFIT_DO_JIT", "1")]) s).state = s ∧
    (importZfit parse (envOf [("ZFIT_EXPERIMENTAL_DO_JIT", text), ("ZFIT_DO_JIT", "1")]) s).error = none := by
  simp [importZfit, maybeDisableJit, envOf, dictGet, offIf, saysOff, h1]

/-- Violation of C313: who uses `ZFIT_EXPERIMENTAL_DO_JIT` is not told that it is deprecated; who uses `ZFIT_DO_JIT` is told that
`ZFIT_EXPERIMENTAL_DO_JIT` is. -/
theorem deprecation_warning_violated (parse : String → Option Int) (text : String) (s : RS) :
    (importZfit parse (envOf [("ZFIT_DISABLE_TF_WARNINGS", "1"), ("ZFIT_EXPERIMENTAL_DO_JIT", text)]) s).warnings = [] ∧
    (importZfit parse (envOf [("ZFIT_DISABLE_TF_WARNINGS", "1"), ("ZFIT_DO_JIT", text)]) s).warnings =
      [.deprecated "ZFIT_EXPERIMENTAL_DO_JIT"] := by
  constructor <;> simp [importZfit, maybeDisableWarnings, jitWarnings, envOf, dictGet]

/-- Texts of integers, as far as needed below. -/
def exParse : String → Option Int := fun s => if s = "0" then some 0 else if s = "1" then some 1 else none

/-- The default state, imported with `ZFIT_GRAPH_MODE=0`: eager; with `=1`: unchanged; with `=off`: a `ValueError`. -/
example : let s : RS := ⟨.auto, defaultJit, false, true, false⟩
    Eager (importZfit exParse (envOf [("ZFIT_GRAPH_MODE", "0")]) s).state ∧
    (importZfit exParse (envOf [("ZFIT_GRAPH_MODE", "1")]) s).state = s ∧
    (importZfit exParse (envOf [("ZFIT_GRAPH_MODE", "off")]) s).error = some .valueError := by
  refine ⟨eager_off _, rfl, rfl⟩

end Zfit.Run
