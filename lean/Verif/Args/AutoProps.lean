import Verif.Args.Auto
import Verif.Param.GraphProps

/-!
# Which parameters may be differentiated automatically

* C122: `autograd_params_model_partial`, `autograd_refused_partial`, `autograd_declaration`; `cached_pdf_violated`
-/

namespace Zfit.Args

open Zfit Zfit.Par

/-! ### Specification -/

/-- The model itself, or one of its daughters in any depth, uses `p` as a parameter that it does not declare as
differentiable. -/
inductive Declared : AMod → Par → Prop
  | own {ps : List (String × Par)} {auto : List String} {y : Option Par} {subs : List AMod} {n : String} {p : Par} :
      (n, p) ∈ ps → n ∉ auto → Declared (.node ps auto y subs) p
  | sub {ps : List (String × Par)} {auto : List String} {y : Option Par} {subs : List AMod} {m : AMod} {p : Par} :
      m ∈ subs → Declared m p → Declared (.node ps auto y subs) p

/-- Its yield is `p`, and not declared as differentiable. -/
def DeclaredYield : AMod → Par → Prop
  | .node _ auto y _, p => y = some p ∧ "yield" ∉ auto

/-- The parameter is one of the model itself or of one of its daughters, in any depth. -/
inductive Uses : AMod → Par → Prop
  | own {ps : List (String × Par)} {auto : List String} {y : Option Par} {subs : List AMod} {n : String} {p : Par} :
      (n, p) ∈ ps → Uses (.node ps auto y subs) p
  | sub {ps : List (String × Par)} {auto : List String} {y : Option Par} {subs : List AMod} {m : AMod} {p : Par} :
      m ∈ subs → Uses m p → Uses (.node ps auto y subs) p

/-- Its yield. -/
def AMod.yld : AMod → Option Par
  | .node _ _ y _ => y

/-- `x` is the parameter or an independent one behind it. -/
def Behind (p : Par) (x : Leaf) : Prop := x = p.leaf ∨ Reach p x

/-! ### The model without (or with only) what is not differentiable -/

mutual
private def restrict (ng : Bool) : AMod → Mod
  | .node ps auto y subs =>
    .node (ownParams ng ps auto) (if ng = true ∧ "yield" ∈ auto then none else y) (restrictList ng subs)
private def restrictList (ng : Bool) : List AMod → List Mod
  | [] => []
  | m :: ms => restrict ng m :: restrictList ng ms
end

private theorem extract_none (ps : List Par) (ext : Option Bool) : ∃ l, extractFilter ps none ext = .ok l := by
  obtain ⟨l, h, -⟩ := extractFilter_ok (ps := ps) (fl := none) (ext := ext) (fun _ _ => Or.inl rfl)
  exact ⟨l, h⟩

private theorem addYield_restrict (ng : Bool) (auto : List String) (y : Option Par) (fl iy ext : Option Bool)
    (own : List Leaf) (h : ng = false ∨ fl = none) (hy : iy ≠ some true) :
    addYieldAuto ng auto y fl iy ext own = addYield (if ng = true ∧ "yield" ∈ auto then none else y) fl iy ext own := by
  unfold addYieldAuto addYield
  by_cases hf : iy = some false
  · rw [if_pos hf, if_pos hf]
  · rw [if_neg hf, if_neg hf]
    by_cases hc : ng = true ∧ "yield" ∈ auto
    · have hfl : fl = none := by
        rcases h with h | h
        · rw [hc.1] at h; cases h
        · exact h
      subst hfl
      simp only [if_pos hc]
      cases y with
      | none => rfl
      | some y =>
        obtain ⟨l, hl⟩ := extract_none [y] ext
        simp only [hl, if_neg hy]
        rfl
    · simp only [if_neg hc]
      rfl

mutual
private theorem collect_restrict (ng : Bool) (fl ext : Option Bool) (h : ng = false ∨ fl = none) : ∀ (m : AMod)
    (iy : Option Bool), iy ≠ some true → AMod.collect ng fl ext m iy = Mod.getParams fl ext (restrict ng m) iy
  | .node ps auto y subs, iy, hy => by
    unfold AMod.collect restrict Mod.getParams
    simp only [if_neg hy, collectList_restrict ng fl ext h subs, addYield_restrict ng auto y fl iy ext _ h hy]
private theorem collectList_restrict (ng : Bool) (fl ext : Option Bool) (h : ng = false ∨ fl = none) :
    ∀ ms : List AMod, AMod.collectList ng fl ext ms = Mod.getParamsList fl ext (restrictList ng ms)
  | [] => by unfold AMod.collectList restrictList Mod.getParamsList; rfl
  | m :: ms => by
    unfold AMod.collectList restrictList Mod.getParamsList
    rw [collect_restrict ng fl ext h m (some false) (by simp), collectList_restrict ng fl ext h ms]
end

private theorem mem_restrictList (ng : Bool) : ∀ (ms : List AMod) (m' : Mod),
    m' ∈ restrictList ng ms ↔ ∃ m ∈ ms, restrict ng m = m'
  | [], m' => by simp [restrictList]
  | m :: ms, m' => by
    simp only [restrictList, List.mem_cons, mem_restrictList ng ms m', exists_eq_or_imp]
    constructor
    · rintro (rfl | h)
      · exact Or.inl rfl
      · exact Or.inr h
    · rintro (rfl | h)
      · exact Or.inl rfl
      · exact Or.inr h

private theorem direct_declared {m : AMod} {p : Par} : Declared m p → Direct (restrict true m) p := by
  intro h
  induction h with
  | own hm hn =>
    unfold restrict
    exact .own (List.mem_map.2 ⟨_, List.mem_filter.2 ⟨hm, by simpa using hn⟩, rfl⟩)
  | sub hm _ ih =>
    unfold restrict
    exact .sub ((mem_restrictList _ _ _).2 ⟨_, hm, rfl⟩) ih

private theorem declared_direct {m' : Mod} {p : Par} (h : Direct m' p) : ∀ m : AMod, restrict true m = m' → Declared m p := by
  induction h with
  | own hm =>
    rintro ⟨ps, auto, y, subs⟩ he
    unfold restrict at he
    injection he with h1 h2 h3
    subst h1
    obtain ⟨⟨n, q⟩, hq, rfl⟩ := List.mem_map.1 hm
    obtain ⟨ha, hb⟩ := List.mem_filter.1 hq
    exact .own ha (by simpa using hb)
  | sub hm _ ih =>
    rintro ⟨ps, auto, y, subs⟩ he
    unfold restrict at he
    injection he with h1 h2 h3
    subst h3
    obtain ⟨m, hm', hr⟩ := (mem_restrictList _ _ _).1 hm
    exact .sub hm' (ih m hr)

private theorem direct_uses {m : AMod} {p : Par} : Uses m p → Direct (restrict false m) p := by
  intro h
  induction h with
  | own hm =>
    unfold restrict
    exact .own (List.mem_map.2 ⟨_, List.mem_filter.2 ⟨hm, by simp⟩, rfl⟩)
  | sub hm _ ih =>
    unfold restrict
    exact .sub ((mem_restrictList _ _ _).2 ⟨_, hm, rfl⟩) ih

private theorem uses_direct {m' : Mod} {p : Par} (h : Direct m' p) : ∀ m : AMod, restrict false m = m' → Uses m p := by
  induction h with
  | own hm =>
    rintro ⟨ps, auto, y, subs⟩ he
    unfold restrict at he
    injection he with h1 h2 h3
    subst h1
    obtain ⟨⟨n, q⟩, hq, rfl⟩ := List.mem_map.1 hm
    exact .own (List.mem_filter.1 hq).1
  | sub hm _ ih =>
    rintro ⟨ps, auto, y, subs⟩ he
    unfold restrict at he
    injection he with h1 h2 h3
    subst h3
    obtain ⟨m, hm', hr⟩ := (mem_restrictList _ _ _).1 hm
    exact .sub hm' (ih m hr)

private theorem selected_restrict (m : AMod) (iy : Option Bool) (hy : iy ≠ some true) (p : Par) :
    (Selected (restrict true m) iy p ↔ Declared m p ∨ (iy ≠ some false ∧ DeclaredYield m p)) ∧
    (Selected (restrict false m) iy p ↔ Uses m p ∨ (iy ≠ some false ∧ m.yld = some p)) := by
  have h1 : Direct (restrict true m) p ↔ Declared m p := ⟨fun h => declared_direct h m rfl, direct_declared⟩
  have h2 : Direct (restrict false m) p ↔ Uses m p := ⟨fun h => uses_direct h m rfl, direct_uses⟩
  have h3 : (restrict true m).yld = some p ↔ DeclaredYield m p := by
    obtain ⟨ps, auto, y, subs⟩ := m
    unfold restrict Mod.yld DeclaredYield
    by_cases hc : "yield" ∈ auto <;> simp [hc]
  have h4 : (restrict false m).yld = m.yld := by
    obtain ⟨ps, auto, y, subs⟩ := m
    unfold restrict Mod.yld AMod.yld
    simp
  unfold Selected
  rw [h1, h2, h3, h4]
  exact ⟨⟨fun h => h.imp And.right (fun x => x), fun h => h.imp (fun x => ⟨hy, x⟩) (fun x => x)⟩,
    ⟨fun h => h.imp And.right (fun x => x), fun h => h.imp (fun x => ⟨hy, x⟩) (fun x => x)⟩⟩

/-- The parameters of a model that `get_params` selects. -/
def UsedBy (iy : Option Bool) (m : AMod) (p : Par) : Prop := Uses m p ∨ (iy ≠ some false ∧ m.yld = some p)

/-- The parameters that are declared as not differentiable. -/
def ForbiddenBy (iy : Option Bool) (m : AMod) (p : Par) : Prop := Declared m p ∨ (iy ≠ some false ∧ DeclaredYield m p)

/-- C122, the proved part: `get_params(autograd=True)` of a model returns every independent parameter it depends on except
those that are behind (or are) a parameter that the model, or a daughter of it in any depth, uses and does not declare as
differentiable; and those behind the yield, if the model does not declare that.  (Missing: a model cannot declare the
parameters of its daughters, see below.) -/
theorem autograd_params_model_partial (m : AMod) (floating : Option Bool) :
    ∃ r, m.getParams floating none (some true) (some true) = .ok r ∧ r.Nodup ∧
      ∀ x, x ∈ r ↔ (∃ p, UsedBy none m p ∧ Reach p x) ∧ Passes floating x ∧ ¬ ∃ p, ForbiddenBy none m p ∧ Behind p x := by
  obtain ⟨a, ha, na, ma⟩ := (getParams_outcome floating (some true) (restrict false m) none (by simp)).1
    (fun p _ => Or.inr (Or.inl rfl))
  obtain ⟨b, hb, nb, mb⟩ := (getParams_outcome none none (restrict true m) none (by simp)).1 (fun p _ => Or.inl rfl)
  rw [← collect_restrict false floating (some true) (Or.inl rfl) m none (by simp)] at ha
  rw [← collect_restrict true none none (Or.inr rfl) m none (by simp)] at hb
  refine ⟨a.filter (fun x => x ∉ b), ?_, na.filter _, ?_⟩
  · unfold AMod.getParams getParamsAuto
    simp only [ha, hb]
    rfl
  · intro x
    rw [List.mem_filter, ma, decide_eq_true_eq, mb]
    constructor
    · rintro ⟨⟨p, hp, hr, hf⟩, hn⟩
      refine ⟨⟨p, ((selected_restrict m none (by simp) p).2).1 hp, hr⟩, hf, ?_⟩
      rintro ⟨q, hq, hb⟩
      exact hn ⟨q, ((selected_restrict m none (by simp) q).1).2 hq, hb, fun _ h => by cases h⟩
    · rintro ⟨⟨p, hp, hr⟩, hf, hn⟩
      refine ⟨⟨p, ((selected_restrict m none (by simp) p).2).2 hp, hr, hf⟩, ?_⟩
      rintro ⟨q, hq, hb, -⟩
      exact hn ⟨q, ((selected_restrict m none (by simp) q).1).1 hq, hb⟩

/-- C122: `get_params(autograd=False)` of a model returns exactly the independent parameters that are behind a parameter
that the model, or a daughter of it in any depth, uses and does not declare as differentiable, or behind the yield, if the
model does not declare that: what `autograd=True` leaves out, and nothing else. -/
theorem autograd_false_params (m : AMod) :
    ∃ r, m.getParams none none (some true) (some false) = .ok r ∧ r.Nodup ∧
      ∀ x, x ∈ r ↔ ∃ p, ForbiddenBy none m p ∧ Reach p x := by
  obtain ⟨b, hb, nb, mb⟩ := (getParams_outcome none (some true) (restrict true m) none (by simp)).1
    (fun p _ => Or.inr (Or.inl rfl))
  rw [← collect_restrict true none (some true) (Or.inr rfl) m none (by simp)] at hb
  refine ⟨b, ?_, nb, ?_⟩
  · unfold AMod.getParams getParamsAuto
    exact hb
  · intro x
    rw [mb]
    constructor
    · rintro ⟨p, hp, hr, -⟩
      exact ⟨p, ((selected_restrict m none (by simp) p).1).1 hp, hr⟩
    · rintro ⟨p, hp, hr⟩
      exact ⟨p, ((selected_restrict m none (by simp) p).1).2 hp, hr, fun _ h => by cases h⟩

example : ((AMod.node [("mu", .node ⟨1, "mu", .indep, true⟩ []), ("sigma", .node ⟨2, "sigma", .indep, true⟩ [])] ["mu"]
    none []).getParams none none (some true) (some false)).map (·.map (·.id)) = .ok [2] := by decide +kernel

private theorem models_restrict (ng : Bool) (fl iy ext : Option Bool) (h : ng = false ∨ fl = none) (hy : iy ≠ some true) :
    ∀ ms : List AMod, modelsCollect ng fl iy ext ms = modelsParams fl iy ext (ms.map (restrict ng))
  | [] => rfl
  | m :: ms => by
    simp only [modelsCollect, List.map_cons, modelsParams, collect_restrict ng fl ext h m iy hy,
      models_restrict ng fl iy ext h hy ms]

private theorem loss_restrict (l : ALoss) (ng : Bool) (fl ext : Option Bool) (h : ng = false ∨ fl = none) :
    l.collect ng fl none ext = Loss.getParams ⟨l.models.map (restrict ng),
      if ng then l.constraints.map (fun _ => []) else l.constraints, l.extended⟩ fl none ext := by
  unfold ALoss.collect Loss.getParams
  have hy : (if l.extended = true then none else some false) ≠ some true := by split <;> simp
  simp only [models_restrict ng fl _ ext h hy]

/-- Whether a loss looks at the yields. -/
def ALoss.yields (l : ALoss) : Option Bool := if l.extended then none else some false

/-- C122, the proved part: the automatic derivatives of a loss with respect to `params` are refused for exactly those
that are no independent parameters of the loss or that are behind a parameter which some PDF in the loss, in any depth of
daughters, does not declare as differentiable, also if others do. Missing from the full claim: the cases of `cached_pdf_violated`. -/
theorem autograd_refused_partial (l : ALoss) (params : List Leaf) :
    ∃ r, l.refused params = .ok r ∧ ∀ x, x ∈ r ↔ x ∈ params ∧
      ((¬ ∃ p, ((∃ m ∈ l.models, UsedBy l.yields m p) ∨ ∃ c ∈ l.constraints, p ∈ c) ∧ Reach p x) ∨
        ∃ m ∈ l.models, ∃ p, ForbiddenBy l.yields m p ∧ Behind p x) := by
  obtain ⟨a, ha, na, ma⟩ := (loss_outcome ⟨l.models.map (restrict false), l.constraints, l.extended⟩ none none (some true)
    (by simp)).1 (fun p _ => Or.inl rfl)
  obtain ⟨b, hb, nb, mb⟩ := (loss_outcome ⟨l.models.map (restrict true), l.constraints.map (fun _ => []), l.extended⟩ none
    none none (by simp)).1 (fun p _ => Or.inl rfl)
  have ha' := loss_restrict l false none (some true) (Or.inl rfl)
  simp only [Bool.false_eq_true, if_false] at ha'
  rw [ha] at ha'
  have hb' := loss_restrict l true none none (Or.inr rfl)
  simp only [if_true] at hb'
  rw [hb] at hb'
  have hy : l.yields ≠ some true := by unfold ALoss.yields; split <;> simp
  refine ⟨params.filter (fun x => x ∉ a.filter (fun x => x ∉ b)), ?_, ?_⟩
  · unfold ALoss.refused ALoss.getParams getParamsAuto
    simp only [ha', hb']
    rfl
  · intro x
    rw [List.mem_filter, decide_eq_true_eq, List.mem_filter, decide_eq_true_eq, not_and_or, not_not, ma, mb]
    refine and_congr_right fun _ => or_congr ?_ ?_
    · refine not_congr ⟨?_, ?_⟩
      · rintro ⟨p, h | h, hr, -⟩
        · obtain ⟨m', hm', hs⟩ := h
          obtain ⟨m, hm, rfl⟩ := List.mem_map.1 hm'
          exact ⟨p, Or.inl ⟨m, hm, ((selected_restrict m l.yields hy p).2).1 hs⟩, hr⟩
        · exact ⟨p, Or.inr h, hr⟩
      · rintro ⟨p, h | h, hr⟩
        · obtain ⟨m, hm, hs⟩ := h
          exact ⟨p, Or.inl ⟨_, List.mem_map_of_mem hm, ((selected_restrict m l.yields hy p).2).2 hs⟩, hr,
            fun _ h => by cases h⟩
        · exact ⟨p, Or.inr h, hr, fun _ h => by cases h⟩
    · constructor
      · rintro ⟨p, h | h, hr, -⟩
        · obtain ⟨m', hm', hs⟩ := h
          obtain ⟨m, hm, rfl⟩ := List.mem_map.1 hm'
          exact ⟨m, hm, p, ((selected_restrict m l.yields hy p).1).1 hs, hr⟩
        · obtain ⟨c, hc, hp⟩ := h
          obtain ⟨c', -, rfl⟩ := List.mem_map.1 hc
          cases hp
      · rintro ⟨m, hm, p, hs, hr⟩
        exact ⟨p, Or.inl ⟨_, List.mem_map_of_mem hm, ((selected_restrict m l.yields hy p).1).2 hs⟩, hr,
          fun _ h => by cases h⟩

/-- C122: left out, all parameters and the yield are declared as differentiable; given names have to be names of
parameters of the model itself (or `yield`), everything else is a `ValueError`. -/
theorem autograd_declaration (params : List (String × Par)) (yld : Option Par) (subs : List AMod) :
    AMod.make params .all yld subs = .ok (.node params (params.map (·.1) ++ ["yield"]) yld subs) ∧
    (∀ l, (∀ n ∈ l, n ∈ params.map (·.1) ∨ n = "yield") →
      AMod.make params (.names l) yld subs = .ok (.node params l yld subs)) ∧
    (∀ l, (∃ n ∈ l, n ∉ params.map (·.1) ∧ n ≠ "yield") → AMod.make params (.names l) yld subs = .error .valueError) ∧
    AMod.make params .other yld subs = .error .valueError := by
  refine ⟨rfl, fun l h => ?_, fun l h => ?_, rfl⟩
  · unfold AMod.make Auto.declare
    simp only
    rw [if_neg]
    · rfl
    · rw [List.any_eq_true]
      rintro ⟨n, hn, hc⟩
      simp only [Bool.and_eq_true, decide_eq_true_eq] at hc
      rcases h n hn with h | h
      · exact hc.1 h
      · exact hc.2 h
  · unfold AMod.make Auto.declare
    simp only
    rw [if_pos]
    · rfl
    · rw [List.any_eq_true]
      obtain ⟨n, hn, hc⟩ := h
      exact ⟨n, hn, by simpa using hc⟩

/-! ### Examples -/

/-- A PDF whose `sigma` (composed of `s` and others) is not differentiable, with a yield. -/
def exAuto : AMod := .node [("mu", exMu), ("sigma", exScaled)] ["mu", "yield"] (some exYield) []

/-- The sum of it with another PDF that declares everything, in terms of a parameter of its own. -/
def exAutoSum : AMod :=
  .node [("frac", .node ⟨5, "frac", .indep, true⟩ [])] ["frac", "yield"] none
    [exAuto, .node [("x", .node ⟨6, "x", .indep, true⟩ [])] ["x", "yield"] none []]

-- `mu` is used by a differentiable parameter as well, but it is behind `sigma`
example : (⟨[exAutoSum], [], false⟩ : ALoss).refused
    [⟨0, "mu", .indep, true⟩, ⟨1, "sigma", .indep, false⟩, ⟨5, "frac", .indep, true⟩, ⟨6, "x", .indep, true⟩]
      = .ok [⟨0, "mu", .indep, true⟩, ⟨1, "sigma", .indep, false⟩] := by decide +kernel

example : exAuto.getParams none none (some true) (some true) = .ok [⟨4, "n", .indep, true⟩] := by decide +kernel

/-- C122 fails for a cached PDF: it declares that nothing is differentiable (it raises during differentiation), but as its
parameters are those of the PDF that it wraps, none of them is refused. -/
theorem cached_pdf_violated (m : AMod) (hd : ∀ p, ¬ Declared m p) :
    ∃ c, cachedPdf m none = .ok c ∧ c.getParams none none (some true) (some true)
      = c.getParams none none (some true) none ∧
      ∀ x, (∃ p, Uses m p ∧ Reach p x) → (⟨[c], [], false⟩ : ALoss).refused [x] = .ok [] := by
  refine ⟨.node [] [] none [m], rfl, ?_, ?_⟩
  · obtain ⟨b, hb, nb, mb⟩ := (getParams_outcome none none (restrict true (.node [] [] none [m])) none (by simp)).1
      (fun p _ => Or.inl rfl)
    rw [← collect_restrict true none none (Or.inr rfl) _ none (by simp)] at hb
    have hnil : b = [] := by
      rw [List.eq_nil_iff_forall_not_mem]
      intro x hx
      obtain ⟨p, hp, -⟩ := (mb x).1 hx
      rcases ((selected_restrict _ none (by simp) p).1).1 hp with h | ⟨-, h⟩
      · cases h with
        | own h => cases h
        | sub h h' =>
          rw [List.mem_singleton] at h
          subst h
          exact hd p h'
      · exact absurd h.1 (by simp)
    obtain ⟨a, ha, -⟩ := (getParams_outcome none (some true) (restrict false (.node [] [] none [m])) none (by simp)).1
      (fun p _ => Or.inl rfl)
    rw [← collect_restrict false none (some true) (Or.inl rfl) _ none (by simp)] at ha
    unfold AMod.getParams getParamsAuto
    simp only [ha, hb, hnil]
    show Except.ok (a.filter (fun x => x ∉ [])) = Except.ok a
    simp
  · rintro x ⟨p, hp, hr⟩
    obtain ⟨r, h, hm⟩ := autograd_refused_partial ⟨[.node [] [] none [m]], [], false⟩ [x]
    rw [h]
    congr
    rw [List.eq_nil_iff_forall_not_mem]
    intro y hy
    obtain ⟨h1, h2⟩ := (hm y).1 hy
    rw [List.mem_singleton] at h1
    subst h1
    rcases h2 with h2 | ⟨m', hm', q, hq, -⟩
    · exact h2 ⟨p, Or.inl ⟨_, List.mem_singleton.2 rfl, Or.inl (.sub (List.mem_singleton.2 rfl) hp)⟩, hr⟩
    · rw [List.mem_singleton] at hm'
      subst hm'
      rcases hq with h | ⟨h, -⟩
      · cases h with
        | own h => cases h
        | sub h h' =>
          rw [List.mem_singleton] at h
          subst h
          exact hd q h'
      · exact h rfl

example : ∀ p, ¬ Declared (.node [("mu", exMu)] ["mu", "yield"] none []) p := by
  intro p h
  cases h with
  | own h h' =>
    simp only [List.mem_singleton, Prod.mk.injEq] at h
    exact h' (by simp [h.1])
  | sub h => cases h

end Zfit.Args
