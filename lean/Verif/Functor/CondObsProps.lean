import Verif.Functor.CondObsModel
import Verif.Functor.CondProps
import Verif.Functor.ProdGroupProps
import Verif.Data.ConcatProps

namespace Zfit.Functor

open Zfit Zfit.Par Zfit.Dat

variable {R Ω : Type}

/-! ### Specification -/

/-- The values of the parameters for an event: a parameter with a condition has the value of its observable, the others are
as they are. -/
def condition (c : Conditional) (s : Store) (p : String → Rat) (i : Nat) : Rat :=
  match c.cond.find? (fun e => e.1 = i) with
  | some (_, o :: _) => p o
  | _ => (s i).value

/-- Every parameter is given once and with at least one observable, and the wrapped PDF has observables. -/
def Conditional.Proper (c : Conditional) : Prop :=
  c.obs ≠ [] ∧ c.obs.Nodup ∧ (c.cond.map (·.1)).Nodup ∧ ∀ e ∈ c.cond, e.2 ≠ []

/-- The conditions of the event are within the limits of the parameters. -/
def Conditional.Fits (c : Conditional) (s : Store) (p : String → Rat) : Prop :=
  ∀ e ∈ c.cond, ∀ o os, e.2 = o :: os → Within (s e.1).lower (s e.1).upper (p o)

/-! ### Lemmas -/

theorem mem_allObs (c : Conditional) (o : String) : o ∈ c.allObs ↔ o ∈ c.obs ∨ ∃ e ∈ c.cond, o ∈ e.2 := by
  unfold Conditional.allObs
  rw [mem_commonObs]
  simp only [List.mem_cons, List.not_mem_nil, or_false, exists_eq_or_imp, exists_eq_left, mem_commonObs, List.mem_map]
  constructor
  · rintro (h | ⟨os, ⟨e, he, rfl⟩, h⟩)
    · exact .inl h
    · exact .inr ⟨e, he, h⟩
  · rintro (h | ⟨e, he, h⟩)
    · exact .inl h
    · exact .inr ⟨_, ⟨e, he, rfl⟩, h⟩

theorem allObs_take (c : Conditional) (hc : c.Proper) : ∃ rest, c.allObs = c.obs ++ rest := by
  have h := (product_obs_ordered_union (R := Unit) (V := Unit) ⟨c.obs, fun _ => ()⟩
    [⟨commonObs (c.cond.map (·.2)), fun _ => ()⟩] hc.2.1).2
  exact ⟨_, h⟩

/-- the first observable of the space of a condition -/
private def Conditional.names (c : Conditional) : List (Nat × String) := c.cond.map (fun e => (e.1, e.2.headD ""))

private theorem indices_ok (c : Conditional) (hc : c.Proper) (xobs : List String)
    (hx : ∀ e ∈ c.cond, ∀ o os, e.2 = o :: os → o ∈ xobs) :
    c.indices xobs = .ok (c.names.map (fun e => (e.1, xobs.idxOf e.2))) := by
  unfold Conditional.indices Conditional.names
  rw [mapM_ok_of_forall (g := fun e => (e.1, xobs.idxOf (e.2.headD "")))]
  · simp [Function.comp_def]
  · intro e he
    obtain ⟨o, os, ho⟩ := List.exists_cons_of_ne_nil (hc.2.2.2 e he)
    rw [ho]
    simp [pyIndex, hx e he o os ho, Except.map]

private theorem event_values (c : Conditional) (hc : c.Proper) (xobs : List String)
    (hx : ∀ e ∈ c.cond, ∀ o os, e.2 = o :: os → o ∈ xobs) (s : Store) (hp : ProperStore s) (p : String → Rat) (hf : c.Fits s p)
    (i : Nat) : ((assignEvent (c.names.map (fun e => (e.1, xobs.idxOf e.2))) s (xobs.map p)) i).value = condition c s p i := by
  have hnd : ((c.names.map (fun e => (e.1, xobs.idxOf e.2))).map (·.1)).Nodup := by
    have := hc.2.2.1
    simpa [Conditional.names, Function.comp_def] using this
  obtain ⟨h1, h2⟩ := conditional_event_parameters _ hnd s (xobs.map p)
  unfold condition
  cases hfd : c.cond.find? (fun e => e.1 = i) with
  | none =>
    have : i ∉ (c.names.map (fun e => (e.1, xobs.idxOf e.2))).map (·.1) := by
      intro hi
      simp only [Conditional.names, List.map_map, List.mem_map, Function.comp_apply] at hi
      obtain ⟨e, he, rfl⟩ := hi
      have := List.find?_eq_none.1 hfd e he
      simp at this
    rw [h2 i this]
  | some e =>
    have he := List.mem_of_find?_eq_some hfd
    have hi : e.1 = i := by simpa using List.find?_some hfd
    subst hi
    obtain ⟨o, os, ho⟩ := List.exists_cons_of_ne_nil (hc.2.2.2 e he)
    have hm : (e.1, xobs.idxOf o) ∈ c.names.map (fun e => (e.1, xobs.idxOf e.2)) := by
      simp only [Conditional.names, List.map_map, List.mem_map, Function.comp_apply]
      exact ⟨e, he, by simp [ho]⟩
    have hv := h1 _ hm
    simp only at hv
    obtain ⟨e1, e2⟩ := e
    simp only at ho
    subst ho
    rw [hv, assign_value]
    have hin := hx _ he o os rfl
    have hget : (xobs.map p).getD (xobs.idxOf o) 0 = p o := by
      rw [List.getD_eq_getElem?_getD, List.getElem?_map, List.getElem?_eq_getElem (List.idxOf_lt_length_of_mem hin)]
      simp
    rw [hget]
    exact clip_of_within (hp _) (hf _ he o os rfl)

private theorem condition_assign (c : Conditional) (hc : c.Proper) (xobs : List String) (s : Store) (row : List Rat) (p : String → Rat)
    (i : Nat) : condition c (assignEvent (c.names.map (fun e => (e.1, xobs.idxOf e.2))) s row) p i = condition c s p i := by
  unfold condition
  cases hfd : c.cond.find? (fun e => e.1 = i) with
  | none =>
    have : (assignEvent (c.names.map (fun e => (e.1, xobs.idxOf e.2))) s row) i = s i := by
      apply assignAll_untouched
      intro hi
      simp only [Conditional.names, List.map_map, List.mem_map, Function.comp_apply] at hi
      obtain ⟨e, he, rfl⟩ := hi
      have := List.find?_eq_none.1 hfd e he
      simp at this
    simp only [this]
  | some e =>
    have he := List.mem_of_find?_eq_some hfd
    obtain ⟨o, os, ho⟩ := List.exists_cons_of_ne_nil (hc.2.2.2 e he)
    obtain ⟨e1, e2⟩ := e
    simp only at ho
    subst ho
    rfl

private theorem map_values (c : Conditional) (hc : c.Proper) (xobs : List String)
    (hx : ∀ e ∈ c.cond, ∀ o os, e.2 = o :: os → o ∈ xobs) (f : (Nat → Rat) → List Rat → R) :
    ∀ (pts : List (String → Rat)) (s : Store), ProperStore s → (∀ p ∈ pts, c.Fits s p) →
      (mapEvents (c.names.map (fun e => (e.1, xobs.idxOf e.2))) (fun s e => .ok (f (fun i => (s i).value) e)) (table xobs pts) s).2
        = .ok (pts.map fun p => f (condition c s p) (xobs.map p)) := by
  intro pts
  induction pts with
  | nil => intros; rfl
  | cons p pts ih =>
    intro s hp hf
    have hl : SameLimits s (assignEvent (c.names.map (fun e => (e.1, xobs.idxOf e.2))) s (xobs.map p)) := assignAll_same _ _
    have ih' := ih (assignEvent (c.names.map (fun e => (e.1, xobs.idxOf e.2))) s (xobs.map p))
      (fun i => by rw [(hl i).1, (hl i).2]; exact hp i)
      (fun q hq e he o os ho => by rw [(hl e.1).1, (hl e.1).2]; exact hf q (by simp [hq]) e he o os ho)
    have hv := event_values c hc xobs hx s hp p (hf p (by simp))
    show (mapEvents _ _ (xobs.map p :: table xobs pts) s).2 = _
    unfold mapEvents
    simp only
    rcases hr : mapEvents (c.names.map (fun e => (e.1, xobs.idxOf e.2))) (fun s e => Except.ok (f (fun i => (s i).value) e))
      (table xobs pts) (assignEvent (c.names.map (fun e => (e.1, xobs.idxOf e.2))) s (xobs.map p)) with ⟨s'', r⟩
    rw [hr] at ih'
    simp only at ih'
    subst ih'
    rw [hr]
    simp only [List.map_cons, Except.ok.injEq, List.cons.injEq]
    constructor
    · rw [show (fun i => (assignEvent (c.names.map (fun e => (e.1, xobs.idxOf e.2))) s (xobs.map p) i).value) = condition c s p from
        funext hv]
    · apply List.map_congr_left
      intro q _
      rw [show condition c (assignEvent (c.names.map (fun e => (e.1, xobs.idxOf e.2))) s (xobs.map p)) q = condition c s q from
        funext (condition_assign c hc xobs s (xobs.map p) q)]

private theorem prepare_ok (c : Conditional) (hc : c.Proper) (d : Data) (pts : List (String → Rat)) (w : Option (List Rat))
    (h : Inv d pts w) (hin : ∀ p ∈ pts, d.space.contains p = true) (hne : ∃ o ∈ c.allObs, o ∈ d.space.obs)
    (hcond : ∀ e ∈ c.cond, ∀ o os, e.2 = o :: os → o ∈ d.space.obs) :
    ∃ sp, c.prepare d = .ok (sp, c.names.map (fun e => (e.1, (c.allObs.filter (· ∈ d.space.obs)).idxOf e.2)),
        table (c.allObs.filter (· ∈ d.space.obs)) pts) ∧ sp.obs = c.allObs.filter (· ∈ d.space.obs) ∧ sp.Proper ∧
      (∀ p ∈ pts, sp.contains p = true) ∧ (sp.lims.isSome = d.space.lims.isSome) := by
  obtain ⟨o₁, ho₁, hd₁⟩ := hne
  have hs' : d.space.withObs c.allObs = .ok ⟨c.allObs.filter (· ∈ d.space.obs),
      d.space.lims.map (·.map (fun b => (c.allObs.filter (· ∈ d.space.obs)).map (fun o => b.getD (d.space.obs.idxOf o) (0, 0))))⟩ := by
    unfold DSpace.withObs
    rw [if_neg (by simp only [Bool.not_eq_true, List.any_eq_false, not_forall]; exact ⟨o₁, ho₁, by simpa using hd₁⟩)]
  have hnd : c.allObs.Nodup := commonObs_nodup _
  obtain ⟨hp, ho, hc'⟩ := withObs_space h.1 hnd hs'
  set s' : DSpace := ⟨c.allObs.filter (· ∈ d.space.obs),
      d.space.lims.map (·.map (fun b => (c.allObs.filter (· ∈ d.space.obs)).map (fun o => b.getD (d.space.obs.idxOf o) (0, 0))))⟩ with hsd
  have hsub : ∀ o ∈ s'.obs, o ∈ d.space.obs := by
    intro o hh
    simpa using (List.mem_filter.1 hh).2
  obtain ⟨ds, h1, h2, -⟩ := h.select hp.1 hsub
  obtain ⟨idx, h3, h4⟩ := bind_eq_ok.1 h1
  obtain ⟨d2, h5, h6, h7⟩ := make_inside hp h2 h.2.2.2 (fun p hh => hc' p (hin p hh))
  have hw : d.withObs c.allObs = .ok d2 := by
    unfold Data.withObs
    rw [hs', except_bind_ok]
    simp only [h3, h4, except_bind_ok, h.2.2.1]
    exact h5
  obtain ⟨d3, h8, -⟩ := h7.value none (by intro x hx; cases hx)
  have hobs : d2.space.obs = c.allObs.filter (· ∈ d.space.obs) := by rw [h6]
  refine ⟨d2.space, ?_, hobs, by rw [h6]; exact hp, fun p hh => by rw [h6]; exact hc' p (hin p hh), by rw [h6]; simp [hsd]⟩
  unfold Conditional.prepare
  rw [hw, except_bind_ok, indices_ok c hc d2.space.obs (by
    intro e he o os ho'
    rw [hobs]
    exact List.mem_filter.2 ⟨(mem_allObs c o).2 (.inr ⟨e, he, by simp [ho']⟩), by simpa using hcond e he o os ho'⟩),
    except_bind_ok, h8, except_bind_ok]
  simp only [Option.getD_none, hobs]
  rfl

private theorem values_of_cond (c : Conditional) (hc : c.Proper) (xobs : List String)
    (hx : ∀ e ∈ c.cond, ∀ o os, e.2 = o :: os → o ∈ xobs) (s : Store) (hp : ProperStore s) (pts : List (String → Rat))
    (hf : ∀ p ∈ pts, c.Fits s p) (f : (Nat → Rat) → List Rat → R) :
    (condPdf (c.names.map (fun e => (e.1, xobs.idxOf e.2))) (fun s e => .ok (f (fun i => (s i).value) e)) (table xobs pts) s).2
      = .ok (pts.map fun p => f (condition c s p) (xobs.map p)) := by
  have hnd : ((c.names.map (fun e => (e.1, xobs.idxOf e.2))).map (·.1)).Nodup := by
    have := hc.2.2.1
    simpa [Conditional.names, Function.comp_def] using this
  rw [conditional_pdf_value _ hnd (fun s e => f (fun i => (s i).value) e) (table xobs pts) s (by
    intro s1 s2 h
    funext e
    rw [show (fun i => (s1 i).value) = fun i => (s2 i).value from funext h]) hp]
  unfold table
  rw [List.map_map]
  congr 1
  apply List.map_congr_left
  intro p hpp
  simp only [Function.comp_apply]
  rw [show (fun i => (assignEvent (c.names.map (fun e => (e.1, xobs.idxOf e.2))) s (xobs.map p) i).value) = condition c s p from
    funext (event_values c hc xobs hx s hp p (hf p hpp))]

private theorem from_tensor_inv (sp : DSpace) (hs : sp.Proper) (pts : List (String → Rat)) (w : Option (List Rat)) (hw : Weighted pts w) :
    ∃ d, Data.fromTensor sp ⟨sp.obs.length, table sp.obs pts⟩ w false = .ok d ∧ d.space = sp ∧
      Inv d (pts.filter sp.contains) (keptWeights sp.contains pts w) ∧
      ∀ p ∈ pts.filter sp.contains, d.space.contains p = true := by
  obtain ⟨t, m, h1, h2⟩ := holds_fromTensor sp.obs pts
  obtain ⟨d, h3, h4, h5, -⟩ := make_tensor_inv hs h2 hw
  refine ⟨d, by simp [Data.fromTensor, h1, h3], h4, h5, ?_⟩
  intro p hp
  rw [h4]
  exact (List.mem_filter.1 hp).2

private theorem filter_mem_self {l m : List String} (h : ∀ o ∈ l, o ∈ m) : l.filter (· ∈ m) = l :=
  List.filter_eq_self.2 (fun o ho => by simpa using h o ho)

private theorem find_cond (c : Conditional) (hc : c.Proper) {i : Nat} {l : List String} (h : (i, l) ∈ c.cond) :
    c.cond.find? (fun e => e.1 = i) = some (i, l) := by
  obtain ⟨obs, cond⟩ := c
  have hnd := hc.2.2.1
  simp only at h hnd ⊢
  clear hc
  induction cond with
  | nil => simp at h
  | cons e es ih =>
    rw [List.find?_cons]
    simp only [List.map_cons, List.nodup_cons] at hnd
    rcases List.mem_cons.1 h with h | h
    · subst h; simp
    · have : e.1 ≠ i := fun he => hnd.1 (he ▸ List.mem_map.2 ⟨_, h, rfl⟩)
      simp only [this, decide_false]
      exact ih h hnd.2

/-! ### The density -/

/-- C303, the proved part: the values of `pdf` of a conditional PDF on data with (at least) its observables, in any order:
for every event the density of the wrapped PDF at the event's values of its own observables, with every parameter that has a
condition at the event's value of the observable it was given with, and all others as they are.  Afterwards all parameters
have the values they had.  (Missing: conditions outside the limits of the parameter, see `conditional_limits_violated`.) -/
theorem conditional_density_partial (c : Conditional) (hc : c.Proper) (f : (Nat → Rat) → List Rat → R) (s : Store)
    (hp : ProperStore s) (sp : DSpace) (hs : sp.Proper) (hsub : ∀ o, o ∈ c.obs ∨ (∃ e ∈ c.cond, o ∈ e.2) → o ∈ sp.obs)
    (pts : List (String → Rat)) (w : Option (List Rat)) (hw : Weighted pts w)
    (hfit : ∀ p ∈ pts, sp.contains p = true → c.Fits s p) :
    ∃ d, Data.fromTensor sp ⟨sp.obs.length, table sp.obs pts⟩ w false = .ok d ∧
      (c.pdf (fun s row => .ok (f (fun i => (s i).value) row)) d s).2 =
        .ok ((pts.filter sp.contains).map fun p => f (condition c s p) (c.obs.map p)) ∧
      ∀ i, (((c.pdf (fun s row => .ok (f (fun i => (s i).value) row)) d s).1) i).value = (s i).value := by
  obtain ⟨d, h1, h2, h3, h4⟩ := from_tensor_inv sp hs pts w hw
  refine ⟨d, h1, ?_⟩
  have hall : c.allObs.filter (· ∈ d.space.obs) = c.allObs := by
    apply filter_mem_self
    intro o ho
    rw [h2]
    exact hsub o ((mem_allObs c o).1 ho)
  obtain ⟨o, os, ho⟩ := List.exists_cons_of_ne_nil hc.1
  have hoc : o ∈ c.obs := by simp [ho]
  obtain ⟨sp', hprep, -⟩ := prepare_ok c hc d _ _ h3 h4 ⟨o, (mem_allObs c o).2 (.inl hoc), by rw [h2]; exact hsub o (.inl hoc)⟩
    (by intro e he o os ho; rw [h2]; exact hsub o (.inr ⟨e, he, by simp [ho]⟩))
  rw [hall] at hprep
  have hx : ∀ e ∈ c.cond, ∀ o os, e.2 = o :: os → o ∈ c.allObs :=
    fun e he o os ho => (mem_allObs c o).2 (.inr ⟨e, he, by simp [ho]⟩)
  unfold Conditional.pdf
  rw [hprep]
  simp only
  constructor
  · rw [values_of_cond c hc c.allObs hx s hp (pts.filter sp.contains)
      (fun p hpp => hfit p (List.mem_filter.1 hpp).1 (List.mem_filter.1 hpp).2) (fun ρ row => f ρ (row.take c.obs.length))]
    congr 1
    apply List.map_congr_left
    intro p _
    obtain ⟨rest, hr⟩ := allObs_take c hc
    rw [hr, List.map_append, List.take_left' (by simp)]
  · intro i
    exact conditional_pdf_restores_partial _ _ _ s hp i

/-- C303 is violated for a condition outside the limits of the parameter: the density is that with the parameter at its
limit, here the density with the parameter at 10 for an event with the condition 12. -/
theorem conditional_limits_violated : ∃ d,
    Data.fromTensor ⟨["x", "m"], none⟩ ⟨2, [[1, 12]]⟩ none false = .ok d ∧
      ((Conditional.mk ["x"] [(0, ["m"])]).pdf (fun s row => .ok ((s 0).value, row)) d exStore).2 = .ok [(10, [1])] := by
  refine ⟨_, rfl, ?_⟩
  decide +kernel

/-- C303: of the space given for a parameter only the first observable counts. -/
theorem conditional_first_observable (c : Conditional) (s : Store) (p : String → Rat) (i : Nat) (o : String) (os : List String)
    (hc : c.Proper) (h : (i, o :: os) ∈ c.cond) : condition c s p i = p o := by
  unfold condition
  rw [find_cond c hc h]

/-- non-vacuity: data with a further observable and in another order; the parameter 0 has the limits `[0, 10]` -/
example : ((Conditional.mk ["x"] [(0, ["m"])]).Proper ∧ ProperStore exStore) ∧
    (∀ p : String → Rat, (⟨["m", "z", "x"], some [[(0, 10), (0, 1), (-5, 5)]]⟩ : DSpace).contains p = true →
      (Conditional.mk ["x"] [(0, ["m"])]).Fits exStore p) := by
  refine ⟨⟨⟨by simp, by simp, by simp, by simp⟩, exStore_proper⟩, ?_⟩
  intro p hp e he o os ho
  simp only [List.mem_singleton] at he
  subst he
  simp only [List.cons.injEq] at ho
  obtain ⟨rfl, -⟩ := ho
  simp only [DSpace.contains, List.any_cons, List.zip_cons_cons, List.all_cons, Bool.and_eq_true, Bool.or_eq_true, decide_eq_true_eq,
    List.any_nil, Bool.false_eq_true, or_false] at hp
  constructor
  · intro l hl; cases hl; exact hp.1.1
  · intro l hl; cases hl; exact hp.1.2

example : ∃ d, Data.fromTensor ⟨["m", "z", "x"], some [[(0, 10), (0, 1), (-5, 5)]]⟩
      ⟨3, [[1, 0, 2], [3, 1, 4], [11, 0, 0]]⟩ none false = .ok d ∧
    ((Conditional.mk ["x"] [(0, ["m"])]).pdf (fun s row => .ok ((s 0).value, row)) d exStore).2 = .ok [(1, [2]), (3, [4])] := by
  refine ⟨_, rfl, ?_⟩
  decide +kernel

/-! ### The integral -/

/-- C304, integrals, the proved part: `integrate(limits, var=x)` gives for every event of `x` the integral of the wrapped PDF
with the parameters of the event.  `x` needs the first observable of every condition only.  (Missing: conditions outside the
limits; the parameters are not set back, see `conditional_integrate_violated`.) -/
theorem conditional_integral_partial (c : Conditional) (hc : c.Proper) (hne : c.cond ≠ []) (g : (Nat → Rat) → R) (s : Store)
    (hp : ProperStore s) (sp : DSpace) (hs : sp.Proper) (hsub : ∀ e ∈ c.cond, ∀ o os, e.2 = o :: os → o ∈ sp.obs)
    (pts : List (String → Rat)) (w : Option (List Rat)) (hw : Weighted pts w)
    (hfit : ∀ p ∈ pts, sp.contains p = true → c.Fits s p) :
    ∃ d, Data.fromTensor sp ⟨sp.obs.length, table sp.obs pts⟩ w false = .ok d ∧
      (c.integrate (fun s => .ok (g fun i => (s i).value)) (some d) s).2 =
        .ok ((pts.filter sp.contains).map fun p => g (condition c s p)) := by
  obtain ⟨d, h1, h2, h3, h4⟩ := from_tensor_inv sp hs pts w hw
  refine ⟨d, h1, ?_⟩
  obtain ⟨e, es, he⟩ := List.exists_cons_of_ne_nil hne
  have hem : e ∈ c.cond := by simp [he]
  obtain ⟨o, os, ho⟩ := List.exists_cons_of_ne_nil (hc.2.2.2 e hem)
  obtain ⟨sp', hprep, hobs, -⟩ := prepare_ok c hc d _ _ h3 h4
    ⟨o, (mem_allObs c o).2 (.inr ⟨e, hem, by simp [ho]⟩), by rw [h2]; exact hsub e hem o os ho⟩
    (by rw [h2]; exact hsub)
  unfold Conditional.integrate
  simp only [hprep]
  unfold condIntegrate
  exact map_values c hc _ (fun e he o os ho => List.mem_filter.2
      ⟨(mem_allObs c o).2 (.inr ⟨e, he, by simp [ho]⟩), by rw [h2]; simpa using hsub e he o os ho⟩) (fun ρ _ => g ρ) _ s hp
    (fun p hpp => hfit p (List.mem_filter.1 hpp).1 (List.mem_filter.1 hpp).2)

/-- C304: without `var` an integral fails, whatever the conditional PDF is. -/
theorem conditional_integral_needs_var (c : Conditional) (int : Store → Except Err R) (s : Store) :
    (c.integrate int none s).2 = .error .attributeError := rfl

/-! ### Samples -/

/-- What is drawn for the event `p`: the same event with a value of the observable of the wrapped PDF. -/
def withDrawn (p : String → Rat) (o : String) (v : Rat) : String → Rat := fun o' => if o' = o then v else p o'

private theorem contains_eq {sp : DSpace} (hs : sp.Proper) {p q : String → Rat} (h : ∀ o ∈ sp.obs, p o = q o) :
    sp.contains p = sp.contains q := by
  rw [← insideRow_point hs.2.2 p, ← insideRow_point hs.2.2 q, List.map_congr_left h]

/-- C304, samples, the proved part: for a wrapped PDF of one observable, `sample(n, limits, x=x)` with as many events as `x`
has gives for every event of `x`, in order, a value drawn from the wrapped PDF with the parameters of the event, together with
the values of the event in the observables of the conditions, and no weights.  The limits and the space of `x` must
both have limits or both have none.  (Missing: wrapped PDFs of several observables, see `conditional_sample_several_violated`.) -/
theorem conditional_sample_partial (c : Conditional) (hc : c.Proper) (hne : c.cond ≠ []) (o : String)
    (draw : (Nat → Rat) → Ω → Rat) (ω : Nat → Ω) (s : Store) (hp : ProperStore s) (lim : DSpace) (hl : lim.Proper) (hlo : lim.obs = [o])
    (hdraw : ∀ ρ r p, p o = draw ρ r → lim.contains p = true) (sp : DSpace) (hs : sp.Proper)
    (hsub : ∀ e ∈ c.cond, ∀ o ∈ e.2, o ∈ sp.obs) (ho : o ∉ sp.obs) (hlims : lim.lims.isSome = sp.lims.isSome)
    (pts : List (String → Rat)) (w : Option (List Rat)) (hw : Weighted pts w)
    (hfit : ∀ p ∈ pts, sp.contains p = true → c.Fits s p) :
    ∃ x, Data.fromTensor sp ⟨sp.obs.length, table sp.obs pts⟩ w false = .ok x ∧
      ∃ d, (c.sample (fun s => .ok fun r => [draw (fun i => (s i).value) r]) ω (pts.filter sp.contains).length lim x s).2 = .ok d ∧
        d.space.obs.head? = some o ∧ (∀ o', (∃ e ∈ c.cond, o' ∈ e.2) → o' ∈ d.space.obs) ∧
        d.Shows ((pts.filter sp.contains).zipIdx.map fun p => withDrawn p.1 o (draw (condition c s p.1) (ω p.2))) none := by
  obtain ⟨d, h1, h2, h3, h4⟩ := from_tensor_inv sp hs pts w hw
  refine ⟨d, h1, ?_⟩
  obtain ⟨e, es, he⟩ := List.exists_cons_of_ne_nil hne
  have hem : e ∈ c.cond := by simp [he]
  obtain ⟨o₁, os, ho₁⟩ := List.exists_cons_of_ne_nil (hc.2.2.2 e hem)
  have hsub' : ∀ e ∈ c.cond, ∀ o os, e.2 = o :: os → o ∈ sp.obs := fun e he o os ho => hsub e he o (by simp [ho])
  obtain ⟨sp', hprep, hobs, hpr, hin, hls⟩ := prepare_ok c hc d _ _ h3 h4
    ⟨o₁, (mem_allObs c o₁).2 (.inr ⟨e, hem, by simp [ho₁]⟩), by rw [h2]; exact hsub' e hem o₁ os ho₁⟩
    (by rw [h2]; exact hsub')
  have hmv := map_values c hc (c.allObs.filter (· ∈ sp.obs)) (fun e he o os ho => List.mem_filter.2
      ⟨(mem_allObs c o).2 (.inr ⟨e, he, by simp [ho]⟩), by simpa using hsub' e he o os ho⟩)
    (fun ρ _ => fun r => [draw ρ r]) (pts.filter sp.contains) s hp
    (fun p hpp => hfit p (List.mem_filter.1 hpp).1 (List.mem_filter.1 hpp).2)
  rw [h2] at hprep hobs hls
  generalize hxo : c.allObs.filter (· ∈ sp.obs) = xobs at *
  generalize hev : pts.filter sp.contains = ev at *
  have hox : o ∉ xobs := by
    intro h
    rw [← hxo] at h
    exact ho (by simpa using (List.mem_filter.1 h).2)
  obtain ⟨space, hmul⟩ : ∃ space, lim.mul sp' = .ok space := by
    unfold DSpace.mul
    rw [← hls] at hlims
    cases h5 : lim.lims <;> cases h6 : sp'.lims <;> simp [h5, h6] at hlims ⊢
  obtain ⟨m1, m2, m3⟩ := contains_mul hl hpr (by rw [hlo, hobs]; simpa using hox) hmul
  have hso : space.obs = o :: xobs := by rw [m2, hlo, hobs]; rfl
  have hin' : ∀ q ∈ ev.zipIdx.map (fun p => withDrawn p.1 o (draw (condition c s p.1) (ω p.2))), space.contains q = true := by
    intro q hq
    obtain ⟨⟨p, i⟩, hpi, rfl⟩ := List.mem_map.1 hq
    rw [m3, hdraw (condition c s p) (ω i) _ (by simp [withDrawn]), Bool.true_and,
      contains_eq hpr (q := p) (by
        intro o' ho'
        rw [hobs] at ho'
        simp only [withDrawn]
        rw [if_neg (by rintro rfl; exact hox ho')])]
    exact hin p (List.fst_mem_of_mem_zipIdx hpi)
  obtain ⟨d', k1, k2, k3, -⟩ := from_tensor_inv space m1
    (ev.zipIdx.map (fun p => withDrawn p.1 o (draw (condition c s p.1) (ω p.2)))) none (by intro l hl; cases hl)
  rw [List.filter_eq_self.2 hin'] at k3
  refine ⟨d', ?_, by rw [k2, hso]; rfl, ?_, k3.shows⟩
  · unfold Conditional.sample
    simp only [hprep, hmul]
    rw [if_neg (by simp [table])]
    rcases hr : mapEvents (c.names.map (fun e => (e.1, xobs.idxOf e.2))) (fun s _ => Except.ok (fun r => [draw (fun i => (s i).value) r]))
      (table xobs ev) s with ⟨s'', r⟩
    rw [hr] at hmv
    simp only at hmv
    subst hmv
    rw [hr]
    simp only
    rw [← k1, hso]
    have : (o :: xobs).length = 1 + sp'.obs.length := by rw [hobs]; simp; omega
    rw [this]
    congr 2
    apply List.ext_getElem
    · simp [table]
    · intro n hn1 hn2
      simp [table, withDrawn]
      intro o' ho' heq
      subst heq
      exact absurd ho' hox
  · rintro o' ⟨e', he', ho'⟩
    rw [k2, hso, ← hxo]
    exact List.mem_cons_of_mem _ (List.mem_filter.2 ⟨(mem_allObs c o').2 (.inr ⟨e', he', ho'⟩), by simpa using hsub e' he' o' ho'⟩)

/-- C304 is violated for wrapped PDFs of several observables: `sample` never succeeds, since only the first of the drawn columns
is kept. -/
theorem conditional_sample_several_violated (c : Conditional) (draw : Store → Except Err (Ω → List Rat)) (ω : Nat → Ω) (n : Nat)
    (lim : DSpace) (hl : 2 ≤ lim.obs.length) (x : Data) (s : Store) : ¬ ∃ d, (c.sample draw ω n lim x s).2 = .ok d := by
  rintro ⟨d, h⟩
  unfold Conditional.sample at h
  split at h
  · simp at h
  · split at h
    · simp at h
    · rename_i sp idx rows _ _ space hm
      split at h
      · simp at h
      · split at h
        · simp at h
        · simp only at h
          have hlen : space.obs.length = lim.obs.length + sp.obs.length := by
            unfold DSpace.mul at hm
            split at hm <;> simp at hm <;> subst hm <;> simp
          unfold Data.fromTensor LDS.fromTensor at h
          rw [if_pos (by simp only; omega)] at h
          simp at h

private theorem make_space {sp : DSpace} {ds : LDS} {w : Option (List Rat)} {d : Data} (h : Data.make sp ds w false = .ok d) :
    d.space = sp := by
  unfold Data.make at h
  simp only [Bool.false_eq_true, if_false] at h
  split at h
  · obtain ⟨r, -, h1⟩ := bind_eq_ok.1 h
    cases h1; rfl
  · obtain ⟨r, -, h1⟩ := bind_eq_ok.1 h
    obtain ⟨r', -, h2⟩ := bind_eq_ok.1 h1
    obtain ⟨r'', -, h3⟩ := bind_eq_ok.1 h2
    cases h3; rfl

/-- C304: `x` with limits and an observable without, or the reverse, is refused. -/
theorem conditional_sample_limits (c : Conditional) (draw : Store → Except Err (Ω → List Rat)) (ω : Nat → Ω) (n : Nat)
    (lim : DSpace) (x : Data) (s : Store) (hl : lim.lims.isSome ≠ x.space.lims.isSome) :
    ¬ ∃ d, (c.sample draw ω n lim x s).2 = .ok d := by
  rintro ⟨d, h⟩
  unfold Conditional.sample at h
  split at h
  · simp at h
  · split at h
    · simp at h
    · rename_i sp idx rows hprep _ space hm
      exfalso
      apply hl
      have hsp : sp.lims.isSome = x.space.lims.isSome := by
        unfold Conditional.prepare at hprep
        obtain ⟨d', h1, h2⟩ := bind_eq_ok.1 hprep
        obtain ⟨i, -, h3⟩ := bind_eq_ok.1 h2
        obtain ⟨t, -, h4⟩ := bind_eq_ok.1 h3
        cases h4
        unfold Data.withObs at h1
        obtain ⟨s', k1, h5⟩ := bind_eq_ok.1 h1
        obtain ⟨i', -, h6⟩ := bind_eq_ok.1 h5
        obtain ⟨ds, -, h7⟩ := bind_eq_ok.1 h6
        rw [make_space h7]
        unfold DSpace.withObs at k1
        split at k1
        · cases k1
        · cases k1
          simp
      rw [← hsp]
      unfold DSpace.mul at hm
      split at hm <;> simp_all

/-- non-vacuity: two events, the drawn value is the condition plus the number of the event -/
example : ∃ x, Data.fromTensor ⟨["m"], some [[(0, 10)]]⟩ ⟨1, [[1], [3], [11]]⟩ none false = .ok x ∧
    (((Conditional.mk ["x"] [(0, ["m"])]).sample (fun s => .ok fun r => [(s 0).value + r]) (fun i => (i : Rat)) 2
      ⟨["x"], some [[(-50, 50)]]⟩ x exStore).2.map fun d => (d.space.obs, d.weights)) = .ok (["x", "m"], none) ∧
    (((Conditional.mk ["x"] [(0, ["m"])]).sample (fun s => .ok fun r => [(s 0).value + r]) (fun i => (i : Rat)) 2
      ⟨["x"], some [[(-50, 50)]]⟩ x exStore).2.bind fun d => (d.value none).map fun t => t.1.rows) = .ok [[1, 1], [4, 3]] := by
  refine ⟨_, rfl, ?_, ?_⟩ <;> decide +kernel

end Zfit.Functor
