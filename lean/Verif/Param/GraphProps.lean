import Verif.Param.GraphLemmas

/-!
# Properties of `get_params` and of the uniqueness of names (C15, C16)
-/

namespace Zfit.Par

open Zfit

/-! ## C16 -/

/-- C16 for a model, any depth of daughters and any nesting of composed parameters, with `extract_independent=True`
(the default): `get_params` returns each of the selected independent parameters exactly once: those behind the parameters
of the model and its daughters (unless only yields are asked for), those behind the model's own yield (unless yields are
excluded), restricted by `floating`.  Asking a model that is not extended for its yields only raises. -/
theorem get_params_independent (m : Mod) (floating isYield : Option Bool) :
    (isYield = some true ∧ m.yld = none →
      Mod.getParams floating (some true) m isYield = .error .notExtended) ∧
    (¬ (isYield = some true ∧ m.yld = none) →
      ∃ r, Mod.getParams floating (some true) m isYield = .ok r ∧ r.Nodup ∧
        ∀ x, x ∈ r ↔ ∃ p, Selected m isYield p ∧ Reach p x ∧ Passes floating x) := by
  constructor
  · rintro ⟨rfl, h⟩
    exact getParams_notExtended _ _ m h
  · intro h
    exact (getParams_outcome floating (some true) m isYield h).1 (fun p _ => Or.inr (Or.inl rfl))

/-- C16, every combination of flags: without extraction (`False`) the parameters themselves, with `None` both; a filter
on `floating` without full extraction raises `ValueError` exactly if one of the selected parameters is dependent. -/
theorem get_params_exact (m : Mod) (floating isYield extract : Option Bool)
    (h : ¬ (isYield = some true ∧ m.yld = none)) :
    ((floating = none ∨ extract = some true ∨ ∀ p, Selected m isYield p → p.leaf.kind = .indep) →
      ∃ r, Mod.getParams floating extract m isYield = .ok r ∧ r.Nodup ∧
        ∀ x, x ∈ r ↔ ∃ p, Selected m isYield p ∧ Contributes extract p x ∧ Passes floating x) ∧
    (¬ (floating = none ∨ extract = some true ∨ ∀ p, Selected m isYield p → p.leaf.kind = .indep) →
      Mod.getParams floating extract m isYield = .error .valueError) := by
  have ho := getParams_outcome floating extract m isYield h
  constructor
  · intro hc
    apply ho.1
    intro p hp
    rcases hc with hc | hc | hc
    · exact Or.inl hc
    · exact Or.inr (Or.inl hc)
    · exact Or.inr (Or.inr (hc p hp))
  · intro hc
    apply ho.2
    intro hf
    apply hc
    by_cases h1 : floating = none
    · exact Or.inl h1
    · by_cases h2 : extract = some true
      · exact Or.inr (Or.inl h2)
      · refine Or.inr (Or.inr fun p hp => ?_)
        rcases hf p hp with h | h | h
        · exact (h1 h).elim
        · exact (h2 h).elim
        · exact h

/-- C16 for a parameter, which can be asked as well: an independent parameter gives itself if it passes the filter, whatever the other flags
are; a dependent one what the parameters it is composed of give, except that none of them is a yield; a filter on `floating` without full
extraction raises `ValueError` exactly if it is composed of a dependent one. -/
theorem parameter_get_params (l : Leaf) (deps : List Par) (floating isYield extract : Option Bool) :
    (l.kind = .indep → ∃ r, (Par.node l deps).getParams floating isYield extract = .ok r ∧ r.Nodup ∧ ∀ x, x ∈ r ↔ x = l ∧ Passes floating x) ∧
    (l.kind ≠ .indep → isYield = some true → (Par.node l deps).getParams floating isYield extract = .ok []) ∧
    (l.kind ≠ .indep → isYield ≠ some true →
      ((floating = none ∨ extract = some true ∨ ∀ d ∈ deps, d.leaf.kind = .indep) →
        ∃ r, (Par.node l deps).getParams floating isYield extract = .ok r ∧ r.Nodup ∧ ∀ x, x ∈ r ↔ ∃ d ∈ deps, Contributes extract d x ∧ Passes floating x) ∧
      (¬ (floating = none ∨ extract = some true ∨ ∀ d ∈ deps, d.leaf.kind = .indep) →
        (Par.node l deps).getParams floating isYield extract = .error .valueError)) := by
  refine ⟨fun hk => ?_, fun hk hy => ?_, fun hk hy => ⟨fun hc => ?_, fun hc => ?_⟩⟩
  · obtain ⟨r, h1, h2, h3⟩ := extractFilter_ok (ps := [Par.node l deps]) (fl := floating) (ext := some false)
      (fun p hp => by
        rw [List.mem_singleton] at hp
        subst hp
        exact Or.inr (Or.inr hk))
    refine ⟨r, by simp only [Par.getParams, if_pos hk, h1], h2, fun x => ?_⟩
    rw [h3]
    simp [Contributes, Par.leaf]
  · simp only [Par.getParams, if_neg hk, if_pos hy]
  · obtain ⟨r, h1, h2, h3⟩ := extractFilter_ok (ps := deps) (fl := floating) (ext := extract)
      (fun p hp => by
        rcases hc with hc | hc | hc
        · exact Or.inl hc
        · exact Or.inr (Or.inl hc)
        · exact Or.inr (Or.inr (hc p hp)))
    exact ⟨r, by simp only [Par.getParams, if_neg hk, if_neg hy, h1], h2, h3⟩
  · simp only [Par.getParams, if_neg hk, if_neg hy]
    apply extractFilter_error
    intro hf
    apply hc
    by_cases h1 : floating = none
    · exact Or.inl h1
    · by_cases h2 : extract = some true
      · exact Or.inr (Or.inl h2)
      · refine Or.inr (Or.inr fun p hp => ?_)
        rcases hf p hp with h | h | h
        · exact (h1 h).elim
        · exact (h2 h).elim
        · exact h

/-- C16 for a parameter with full extraction: exactly the independent parameters behind it. -/
theorem parameter_get_params_independent (p : Par) (floating isYield : Option Bool) (h : isYield ≠ some true) :
    ∃ r, p.getParams floating isYield (some true) = .ok r ∧ r.Nodup ∧ ∀ x, x ∈ r ↔ Reach p x ∧ Passes floating x := by
  obtain ⟨l, deps⟩ := p
  obtain ⟨h1, -, h3⟩ := parameter_get_params l deps floating isYield (some true)
  by_cases hk : l.kind = .indep
  · obtain ⟨r, hr, hn, hx⟩ := h1 hk
    refine ⟨r, hr, hn, fun x => ?_⟩
    rw [hx]
    refine and_congr_left fun _ => ⟨fun h => ?_, fun h => ?_⟩
    · subst h
      exact Reach.self hk
    · cases h with
      | self _ => rfl
      | dep h' => exact absurd hk h'
  · obtain ⟨r, hr, hn, hx⟩ := (h3 hk h).1 (Or.inr (Or.inl rfl))
    refine ⟨r, hr, hn, fun x => ?_⟩
    rw [hx]
    constructor
    · rintro ⟨d, hd, hc, hp⟩
      exact ⟨Reach.dep hk hd hc, hp⟩
    · rintro ⟨hr, hp⟩
      cases hr with
      | self h' => exact absurd h' hk
      | dep _ hd hc => exact ⟨_, hd, hc, hp⟩

/-- A composed parameter of a floating and a fixed one: the floating one only. -/
example : (Par.node ⟨2, "sum", .composed, false⟩ [.node ⟨0, "mu", .indep, true⟩ [], .node ⟨1, "sigma", .indep, false⟩ []]).getParams
    (some true) (some false) (some true) = .ok [⟨0, "mu", .indep, true⟩] := rfl

/-- C16 for a loss: the parameters of its models (with their yields only if the loss is extended) and of its
constraints, each once. -/
theorem loss_get_params (l : Loss) (floating isYield : Option Bool) (h : isYield ≠ some true) :
    ∃ r, l.getParams floating isYield (some true) = .ok r ∧ r.Nodup ∧
      ∀ x, x ∈ r ↔ ∃ p, ((∃ m ∈ l.models, Selected m (if l.extended then isYield else some false) p) ∨
        ∃ c ∈ l.constraints, p ∈ c) ∧ Reach p x ∧ Passes floating x :=
  (loss_outcome l floating isYield (some true) h).1 (fun p _ => Or.inr (Or.inl rfl))

/-- Abbreviations for the examples. -/
def exMu : Par := .node ⟨0, "mu", .indep, true⟩ []
def exSigma : Par := .node ⟨1, "sigma", .indep, false⟩ []
def exScaled : Par := .node ⟨2, "scaled", .composed, false⟩ [exSigma, .node ⟨3, "two", .const, false⟩ [], exMu]
def exYield : Par := .node ⟨4, "n", .indep, true⟩ []
def exGauss : Mod := .node [exMu, exScaled] (some exYield) []
def exSum : Mod := .node [.node ⟨5, "frac", .indep, true⟩ []] none [exGauss, .node [exSigma] none []]

/-- A case: a sum of an extended model with a composed parameter and another model. -/
example :
    Mod.getParams none (some true) exSum none =
      .ok [⟨5, "frac", .indep, true⟩, ⟨0, "mu", .indep, true⟩, ⟨1, "sigma", .indep, false⟩] ∧
    Mod.getParams (some true) (some true) exGauss none =
      .ok [⟨4, "n", .indep, true⟩, ⟨0, "mu", .indep, true⟩] ∧
    Mod.getParams (some true) (some true) exGauss (some true) = .ok [⟨4, "n", .indep, true⟩] ∧
    Mod.getParams (some true) (some true) exSum (some true) = .error .notExtended ∧
    Mod.getParams (some true) (some false) exGauss none = .error .valueError := by
  refine ⟨?_, ?_, ?_, ?_, ?_⟩ <;> rfl

/-! ## C15 -/

/-- The exact content of the check: a model is accepted if and only if no two different ones share a name among: the
parameters of the model and its daughters, its yield, and all independent parameters behind these; else
`ParamNameNotUniqueError`. -/
theorem model_accepted_iff (m : Mod) :
    (m.assertUnique = .ok () ↔ ∀ x y, (∃ p, Selected m none p ∧ (x = p.leaf ∨ Reach p x)) →
      (∃ p, Selected m none p ∧ (y = p.leaf ∨ Reach p y)) → x.name = y.name → x = y) ∧
    (m.assertUnique = .ok () ∨ m.assertUnique = .error .paramNameNotUnique) :=
  unique_of_outcome (getParams_outcome none none m none (by simp))

/-- C15 for independent parameters: in an accepted model no two different independent parameters that it depends on,
through any nesting of models and of composed parameters, carry the same name. -/
theorem independent_names_unique (m : Mod) (h : m.assertUnique = .ok ()) (x y : Leaf)
    (hx : ∃ p, Selected m none p ∧ Reach p x) (hy : ∃ p, Selected m none p ∧ Reach p y) (he : x.name = y.name) :
    x = y := by
  obtain ⟨p, hp, hx⟩ := hx
  obtain ⟨q, hq, hy⟩ := hy
  exact (model_accepted_iff m).1.1 h x y ⟨p, hp, Or.inr hx⟩ ⟨q, hq, Or.inr hy⟩ he

/-- C15 for independent parameters, the converse: if all parameters involved are independent, a model is rejected only
for two different parameters of the same name. -/
theorem rejected_only_for_names (m : Mod) (hind : ∀ p, Selected m none p → p.leaf.kind = .indep)
    (h : m.assertUnique = .error .paramNameNotUnique) :
    ∃ p q, Selected m none p ∧ Selected m none q ∧ p.leaf ≠ q.leaf ∧ p.leaf.name = q.leaf.name := by
  by_contra hcon
  push Not at hcon
  have hok : m.assertUnique = .ok () := by
    rw [(model_accepted_iff m).1]
    have hleaf : ∀ (p : Par) (z : Leaf), p.leaf.kind = .indep → (z = p.leaf ∨ Reach p z) → z = p.leaf := by
      rintro ⟨l, ds⟩ z hk (h | h)
      · exact h
      · cases h with
        | self _ => rfl
        | dep hn _ _ => exact (hn hk).elim
    rintro x y ⟨p, hp, hx⟩ ⟨q, hq, hy⟩ he
    have hxl := hleaf p x (hind p hp) hx
    have hyl := hleaf q y (hind q hq) hy
    by_contra hne
    subst hxl hyl
    exact hcon p q hp hq hne he
  rw [hok] at h
  cases h

/-- The same check for a loss, over its models and constraints. -/
theorem loss_accepted_iff (l : Loss) :
    (l.assertUnique = .ok () ↔ ∀ x y,
      (∃ p, ((∃ m ∈ l.models, Selected m (if l.extended then none else some false) p) ∨ ∃ c ∈ l.constraints, p ∈ c) ∧
        (x = p.leaf ∨ Reach p x)) →
      (∃ p, ((∃ m ∈ l.models, Selected m (if l.extended then none else some false) p) ∨ ∃ c ∈ l.constraints, p ∈ c) ∧
        (y = p.leaf ∨ Reach p y)) → x.name = y.name → x = y) ∧
    (l.assertUnique = .ok () ∨ l.assertUnique = .error .paramNameNotUnique) :=
  unique_of_outcome (loss_outcome l none none none (by simp))

example : exSum.assertUnique = .ok () ∧ exGauss.assertUnique = .ok () ∧
    (Mod.node [exMu, .node ⟨9, "mu", .indep, true⟩ []] none []).assertUnique = .error .paramNameNotUnique ∧
    -- two different independent parameters of one name, one inside a composed parameter of a daughter
    (Mod.node [.node ⟨9, "mu", .indep, true⟩ []] none [.node [exScaled] none []]).assertUnique =
      .error .paramNameNotUnique := by
  refine ⟨?_, ?_, ?_, ?_⟩ <;> rfl

/-- C15 fails for composed parameters inside composed parameters: two different ones named `n`, both influencing the
model, are not noticed. -/
theorem nested_composed_same_name_violated :
    (Mod.node [
      .node ⟨10, "a", .composed, false⟩ [.node ⟨11, "n", .composed, false⟩ [exMu]],
      .node ⟨12, "b", .composed, false⟩ [.node ⟨13, "n", .composed, false⟩ [exSigma]]] none []).assertUnique =
        .ok () := rfl

/-- C15 fails for the name of a composed parameter itself: it may carry the name of the parameter it depends on. -/
theorem composed_same_name_as_dependency_violated :
    (Par.node ⟨10, "mu", .composed, false⟩ [exMu]).assertUnique = .ok () := rfl

/-- C15 does not cover the yields of daughters: two extended models with different yields of the same name make up a
valid product. -/
theorem daughter_yields_same_name_violated :
    (Mod.node [] none [.node [exMu] (some exYield) [],
      .node [exSigma] (some (.node ⟨20, "n", .indep, true⟩ [])) []]).assertUnique = .ok () := rfl

end Zfit.Par
