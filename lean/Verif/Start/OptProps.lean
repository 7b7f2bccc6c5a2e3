import Verif.Start.Model

/-! # The options of SciPy minimisers: C169, C170, C171 -/

namespace Zfit.Start

open Zfit

section
variable {X V : Type}

/-! ## C169: any result can be the start of any minimisation -/

/-- The result is of a kind that the minimiser can read. -/
def Readable (k : Initializer) (init : Option (Original V)) : Prop :=
  match k with
  | .powell | .nelderMead => ∀ r, init = some r → ∃ d s, r = .scipy d s
  | _ => True

theorem runInit_ok {k : Initializer} {o : Opts V} {init : Option (Original V)} {mean steps : V} (h : Readable k init) :
    ∃ o', runInit k o init mean steps = .ok o' := by
  unfold runInit
  cases k with
  | none => exact ⟨_, rfl⟩
  | trust key => exact ⟨_, rfl⟩
  | scale => exact ⟨_, rfl⟩
  | powell =>
    cases init with
    | none => exact ⟨_, rfl⟩
    | some r =>
      obtain ⟨d, s, rfl⟩ := h r rfl
      exact ⟨_, rfl⟩
  | nelderMead =>
    cases init with
    | none => exact ⟨_, rfl⟩
    | some r =>
      obtain ⟨d, s, rfl⟩ := h r rfl
      exact ⟨_, rfl⟩

theorem readable_scipy (k : Initializer) (d s : Option V) : Readable k (some (.scipy d s)) := by
  unfold Readable
  cases k <;> first | trivial | (intro r hr; cases hr; exact ⟨d, s, rfl⟩)

theorem turns_ok (k : Initializer) (f : Fit X V) (fuel i : Nat) (x : X) (o : Opts V) (prelim : Option (Original V)) (h : Readable k prelim) :
    (turns k f fuel i x o prelim).2.2 = none := by
  induction fuel generalizing i x o prelim with
  | zero => rfl
  | succ n ih =>
    unfold turns
    obtain ⟨o', ho⟩ := runInit_ok (o := o) (mean := f.mean i) (steps := f.steps i) h
    rw [ho]
    dsimp only
    split
    · rfl
    · exact ih _ _ _ _ (readable_scipy k _ _)

/-- C169 (part): apart from Powell and Nelder-Mead, every SciPy minimiser can start from the result of every minimiser, and those two can from
the results of SciPy minimisers, or without one. Missing from the full claim: the cases of `foreign_result_violated`. -/
theorem any_result_partial (k : Initializer) (o : Opts V) (f : Fit X V) (h : Readable k f.init) : (scipyMinimize k o f).2.2 = none :=
  turns_ok k f 20 0 f.x0 _ f.init h

/-- C169: Powell and Nelder-Mead raise an exception for every result of Minuit, NLopt and Ipopt, before SciPy is called. -/
theorem foreign_result_violated (k : Initializer) (hk : k = .powell ∨ k = .nelderMead) (o : Opts V) (f : Fit X V) :
    (f.init = some .minuit → (scipyMinimize k o f).1 = [] ∧ (scipyMinimize k o f).2.2 = some .attributeError) ∧
    (f.init = some .nlopt → (scipyMinimize k o f).1 = [] ∧ (scipyMinimize k o f).2.2 = some .attributeError) ∧
    (f.init = some .ipopt → (scipyMinimize k o f).1 = [] ∧ (scipyMinimize k o f).2.2 = some .keyError) := by
  rcases hk with rfl | rfl <;>
  · refine ⟨fun h => ?_, fun h => ?_, fun h => ?_⟩ <;>
    · unfold scipyMinimize
      rw [h]
      exact ⟨rfl, rfl⟩

/-! ## C170, C171: what SciPy is called with -/

/-- The keys that a minimiser with the initialiser `k` writes itself. -/
def Own (k : Initializer) (tolKeys : List String) (hasMax : Bool) (key : String) : Prop :=
  key = "disp" ∨ (hasMax = true ∧ key = "maxiter") ∨ key ∈ tolKeys ∨
    match k with
    | .none => False
    | .trust t => key = t
    | .scale => key = "scale"
    | .powell => key = "direc"
    | .nelderMead => key = "initial_simplex"

/-- The fit is one of a minimiser whose internal tolerances have these names and that has (or not) a budget. -/
structure Belongs (tolKeys : List String) (hasMax : Bool) (f : Fit X V) : Prop where
  tols : ∀ i, (f.tols i).map (·.1) = tolKeys
  budget : f.maxiter.isSome = hasMax

theorem set_ne {o : Opts V} {k key : String} {x : V} (h : key ≠ k) : o.set k x key = o key := Function.update_of_ne h _ _

theorem set_self {o : Opts V} {k : String} {x : V} : o.set k x k = some x := Function.update_self ..

theorem setSome_ne {o : Opts V} {k key : String} {x : Option V} (h : key ≠ k) : o.setSome k x key = o key := by
  cases x
  · rfl
  · exact set_ne h

theorem writeTols_ne {o : Opts V} {l : List (String × V)} {key : String} (h : key ∉ l.map (·.1)) : writeTols o l key = o key := by
  unfold writeTols
  induction l generalizing o with
  | nil => rfl
  | cons p l ih =>
    simp only [List.map_cons, List.mem_cons, not_or] at h
    rw [List.foldl_cons, ih h.2, set_ne h.1]

theorem writeTols_congr {o o' : Opts V} {l : List (String × V)} (h : ∀ key, key ∉ l.map (·.1) → o key = o' key) : writeTols o l = writeTols o' l := by
  unfold writeTols
  induction l generalizing o o' with
  | nil => exact funext fun key => h key (by simp)
  | cons p l ih =>
    rw [List.foldl_cons, List.foldl_cons]
    apply ih
    intro key hk
    by_cases hp : key = p.1
    · subst hp
      rw [set_self, set_self]
    · rw [set_ne hp, set_ne hp]
      exact h key (by simp [hp, hk])

theorem runInit_other {k : Initializer} {tk : List String} {hm : Bool} {o o' : Opts V} {init : Option (Original V)} {mean steps : V} {key : String}
    (hk : ¬ Own k tk hm key) (h : runInit k o init mean steps = .ok o') : o' key = o key := by
  simp only [Own, not_or] at hk
  obtain ⟨-, -, -, hk⟩ := hk
  unfold runInit at h
  cases k with
  | none => cases h; rfl
  | trust t =>
    cases h
    split
    · exact set_ne hk
    · rfl
  | scale => cases h; exact set_ne hk
  | powell =>
    cases init with
    | none => cases h; rfl
    | some r =>
      rcases hr : r.get true with e | d
      · simp only [hr] at h; cases h
      · simp only [hr] at h
        cases h
        exact setSome_ne hk
  | nelderMead =>
    cases init with
    | none => cases h; rfl
    | some r =>
      rcases hr : r.get false with e | d
      · simp only [hr] at h; cases h
      · simp only [hr] at h
        cases h
        exact setSome_ne hk

theorem turns_other {k : Initializer} {tk : List String} {hm : Bool} {f : Fit X V} (hf : Belongs tk hm f) {key : String} (hk : ¬ Own k tk hm key)
    (fuel i : Nat) (x : X) (o : Opts V) (prelim : Option (Original V)) :
    (∀ c ∈ (turns k f fuel i x o prelim).1, c.2 key = o key) ∧ (turns k f fuel i x o prelim).2.1 key = o key := by
  induction fuel generalizing i x o prelim with
  | zero => exact ⟨fun c hc => (by cases hc), rfl⟩
  | succ n ih =>
    unfold turns
    split
    · exact ⟨fun c hc => (by cases hc), rfl⟩
    · rename_i o' ho
      have h1 : writeTols o' (f.tols i) key = o key := by
        rw [writeTols_ne, runInit_other hk ho]
        rw [hf.tols]
        simp only [Own, not_or] at hk
        exact hk.2.2.1
      dsimp only
      split
      · exact ⟨fun c hc => by rw [List.mem_singleton] at hc; rw [hc]; exact h1, h1⟩
      · rename_i x' hx
        obtain ⟨h2, h3⟩ := ih (i + 1) x' (writeTols o' (f.tols i)) (some (.scipy (f.run x (writeTols o' (f.tols i))).1 (f.run x (writeTols o' (f.tols i))).2))
        refine ⟨fun c hc => ?_, h3.trans h1⟩
        rcases List.mem_cons.1 hc with rfl | hc
        · exact h1
        · exact (h2 c hc).trans h1

theorem minimize_other {k : Initializer} {tk : List String} {hm : Bool} {f : Fit X V} (hf : Belongs tk hm f) {key : String} (hk : ¬ Own k tk hm key)
    (o : Opts V) : (∀ c ∈ (scipyMinimize k o f).1, c.2 key = o key) ∧ (scipyMinimize k o f).2.1 key = o key := by
  have h0 : ((o.setSome "maxiter" f.maxiter).set "disp" f.disp) key = o key := by
    simp only [Own, not_or, not_and] at hk
    rw [set_ne hk.1]
    rcases hb : f.maxiter with _ | m
    · rfl
    · exact setSome_ne (hk.2.1 (by rw [← hf.budget, hb]; rfl))
  have := turns_other hf hk 20 0 f.x0 ((o.setSome "maxiter" f.maxiter).set "disp" f.disp) f.init
  rw [h0] at this
  exact this

/-- C171 (part): an option that the minimiser was created with and that it does not set itself (verbosity, budget, internal tolerances, step sizes, simplex) reaches every
call of SciPy unchanged, in every minimisation. Missing from the full claim: the cases of `trust_radius_violated`. -/
theorem options_reach_partial {k : Initializer} {tk : List String} {hm : Bool} {fs : List (Fit X V)} (hfs : ∀ f ∈ fs, Belongs tk hm f)
    {f : Fit X V} (hf : Belongs tk hm f) {key : String} (hk : ¬ Own k tk hm key) (o : Opts V) :
    ∀ c ∈ (scipyMinimize k (afterFits k o fs) f).1, c.2 key = o key := by
  have h1 : afterFits k o fs key = o key := by
    unfold afterFits
    induction fs generalizing o with
    | nil => rfl
    | cons g fs ih =>
      rw [List.foldl_cons, ih (fun f hf => hfs f (List.mem_cons_of_mem _ hf)), (minimize_other (hfs g List.mem_cons_self) hk o).2]
  intro c hc
  rw [(minimize_other hf hk _).1 c hc, h1]

/-- C171: the initial trust radius that the user gives is overwritten by the mean of the step sizes if the fit does not start from a result, whatever it
is. -/
theorem trust_radius_violated (t : String) (o : Opts V) (f : Fit X V) (hi : f.init = none) (ht : t ∉ (f.tols 0).map (·.1)) :
    ∃ o' rest, (scipyMinimize (.trust t) o f).1 = (f.x0, o') :: rest ∧ o' t = some (f.mean 0) := by
  unfold scipyMinimize turns
  rw [hi]
  simp only [runInit, Option.isNone_none, if_true]
  split
  · exact ⟨_, _, rfl, by rw [writeTols_ne ht, set_self]⟩
  · exact ⟨_, _, rfl, by rw [writeTols_ne ht, set_self]⟩

/-- Two dictionaries agree but for what the turn writes. -/
theorem turns_congr {k : Initializer} {tk : List String} {f : Fit X V} (ht : ∀ i, (f.tols i).map (·.1) = tk)
    (fuel i : Nat) (x : X) {o o' : Opts V} (prelim : Option (Original V)) (hk : k = .none ∨ k = .scale ∨ ∃ t, k = .trust t ∧ (prelim = none ∨ o t = o' t))
    (h : ∀ key, key ∉ tk → (k = .scale → key ≠ "scale") → (∀ t, k = .trust t → key ≠ t) → o key = o' key) :
    (turns k f fuel i x o prelim).1 = (turns k f fuel i x o' prelim).1 := by
  cases fuel with
  | zero => rfl
  | succ n =>
    have hw : ∀ o1 o1', runInit k o prelim (f.mean i) (f.steps i) = .ok o1 → runInit k o' prelim (f.mean i) (f.steps i) = .ok o1' →
        writeTols o1 (f.tols i) = writeTols o1' (f.tols i) := by
      intro o1 o1' h1 h2
      apply writeTols_congr
      intro key hkey
      rw [ht] at hkey
      rcases hk with rfl | rfl | ⟨t, rfl, hp⟩
      · cases h1
        cases h2
        exact h key hkey (by simp) (by simp)
      · cases h1
        cases h2
        by_cases hs : key = "scale"
        · subst hs
          rw [set_self, set_self]
        · rw [set_ne hs, set_ne hs]
          exact h key hkey (fun _ => hs) (by simp)
      · cases h1
        cases h2
        by_cases hs : key = t
        · subst hs
          rcases hp with rfl | hp
          · simp only [Option.isNone_none, if_true]
            rw [set_self, set_self]
          · split
            · rw [set_self, set_self]
            · exact hp
        · have := h key hkey (by simp) (fun t' ht' => by cases ht'; exact hs)
          split
          · rw [set_ne hs, set_ne hs, this]
          · exact this
    have hr : Readable k prelim := by
      rcases hk with rfl | rfl | ⟨t, rfl, -⟩ <;> trivial
    obtain ⟨o1, h1⟩ := runInit_ok (o := o) (mean := f.mean i) (steps := f.steps i) hr
    obtain ⟨o1', h1'⟩ := runInit_ok (o := o') (mean := f.mean i) (steps := f.steps i) hr
    have := hw o1 o1' h1 h1'
    unfold turns
    rw [h1, h1']
    dsimp only
    rw [this]

/-- C170 (part): for minimisers that keep nothing from a result (all without an initialiser, TNC), and for those with a trust radius if the fit does not start from a result, a
minimisation makes the same calls of SciPy, with the same options, whatever the minimiser has been used for before. Missing from the full
claim: the cases of `simplex_kept_violated`, `radius_kept_violated`. -/
theorem reuse_partial {k : Initializer} {tk : List String} {hm : Bool} {fs : List (Fit X V)} (hfs : ∀ f ∈ fs, Belongs tk hm f)
    {f : Fit X V} (hf : Belongs tk hm f) (hk : k = .none ∨ k = .scale ∨ ∃ t, k = .trust t ∧ f.init = none) (o : Opts V) :
    (scipyMinimize k (afterFits k o fs) f).1 = (scipyMinimize k o f).1 := by
  have h1 : ∀ key, ¬ Own k tk hm key → afterFits k o fs key = o key := by
    intro key hkey
    unfold afterFits
    induction fs generalizing o with
    | nil => rfl
    | cons g fs ih =>
      rw [List.foldl_cons, ih (fun f hf => hfs f (List.mem_cons_of_mem _ hf)), (minimize_other (hfs g List.mem_cons_self) hkey o).2]
  unfold scipyMinimize
  apply turns_congr (k := k) hf.tols
  · rcases hk with rfl | rfl | ⟨t, rfl, hi⟩
    · exact .inl rfl
    · exact .inr (.inl rfl)
    · exact .inr (.inr ⟨t, rfl, .inl hi⟩)
  · intro key ht hs htr
    by_cases hd : key = "disp"
    · subst hd
      rw [set_self, set_self]
    rw [set_ne hd, set_ne hd]
    rcases hb : f.maxiter with _ | m
    · apply h1
      have hmf : hm = false := by rw [← hf.budget, hb]; rfl
      simp only [Own, not_or]
      refine ⟨hd, by simp [hmf], ht, ?_⟩
      rcases hk with rfl | rfl | ⟨t, rfl, -⟩
      · simp
      · exact hs rfl
      · exact htr t rfl
    · show (afterFits k o fs).set "maxiter" m key = o.set "maxiter" m key
      by_cases hmx : key = "maxiter"
      · subst hmx
        rw [set_self, set_self]
      rw [set_ne hmx, set_ne hmx]
      apply h1
      simp only [Own, not_or]
      refine ⟨hd, fun h => hmx h.2, ht, ?_⟩
      rcases hk with rfl | rfl | ⟨t, rfl, -⟩
      · simp
      · exact hs rfl
      · exact htr t rfl

/-- A fit for the examples: SciPy returns the directions `7` and the simplex `8`, and there are two turns. -/
def exFit (init : Option (Original ℚ)) : Fit ℚ ℚ where
  x0 := 1
  init := init
  maxiter := some 100
  disp := 0
  tols := fun i => [("gtol", 1 / (i + 1))]
  mean := fun i => if i = 0 then 1/2 else 1/4
  steps := fun _ => 2
  run := fun _ _ => (some 7, some 8)
  next := fun i => if i = 0 then some 3 else none

theorem exFit_belongs (init : Option (Original ℚ)) : Belongs ["gtol"] true (exFit init) := ⟨fun _ => rfl, rfl⟩

/-- C170: after a first minimisation, Powell and Nelder-Mead start another one (of whatever loss) with the directions or the simplex of the first. -/
theorem simplex_kept_violated :
    ((scipyMinimize .nelderMead (fun _ => none) (exFit none)).1.head?.bind (fun c => c.2 "initial_simplex")) = none ∧
    ((scipyMinimize .nelderMead (afterFits .nelderMead (fun _ => none) [exFit none]) (exFit none)).1.head?.bind (fun c => c.2 "initial_simplex")) = some 8 ∧
    ((scipyMinimize .powell (fun _ => none) (exFit none)).1.head?.bind (fun c => c.2 "direc")) = none ∧
    ((scipyMinimize .powell (afterFits .powell (fun _ => none) [exFit none]) (exFit none)).1.head?.bind (fun c => c.2 "direc")) = some 7 := by
  refine ⟨by rfl, by rfl, by rfl, by rfl⟩

/-- C170: with a result to start from, the trust radius is that of an earlier minimisation. -/
theorem radius_kept_violated :
    ((scipyMinimize (.trust "initial_tr_radius") (fun _ => none) (exFit (some .minuit))).1.head?.bind (fun c => c.2 "initial_tr_radius")) = none ∧
    ((scipyMinimize (.trust "initial_tr_radius") (afterFits (.trust "initial_tr_radius") (fun _ => none) [exFit none]) (exFit (some .minuit))).1.head?.bind
      (fun c => c.2 "initial_tr_radius")) = some (1/2) := by
  refine ⟨by rfl, by rfl⟩

example : (scipyMinimize .scale (afterFits .scale (fun _ => none) [exFit none, exFit (some .nlopt)]) (exFit none)).1 =
    (scipyMinimize .scale (fun _ => none) (exFit none)).1 :=
  reuse_partial (tk := ["gtol"]) (hm := true) (by simp [exFit_belongs]) (exFit_belongs none) (.inr (.inl rfl)) _
example : (scipyMinimize .scale (fun _ => none) (exFit none)).1.length = 2 := by rfl
example : ∀ c ∈ (scipyMinimize .none (afterFits .none (fun key => if key = "eta" then some (1/5) else none) [exFit none]) (exFit none)).1, c.2 "eta" = some (1/5) :=
  fun c hc => options_reach_partial (tk := ["gtol"]) (hm := true) (by simp [exFit_belongs]) (exFit_belongs none) (by simp [Own]) _ c hc
example : (scipyMinimize .powell (fun _ => none) (exFit (some .minuit))).2.2 = some .attributeError :=
  ((foreign_result_violated .powell (.inl rfl) _ _).1 rfl).2
example : (scipyMinimize .nelderMead (fun _ => none) (exFit (some (.scipy none (some 3))))).2.2 = none :=
  any_result_partial _ _ _ (readable_scipy _ _ _)

end

end Zfit.Start
