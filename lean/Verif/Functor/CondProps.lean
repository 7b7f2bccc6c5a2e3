import Verif.Functor.CondModel
import Verif.Param.Props

namespace Zfit.Functor

open Zfit Zfit.Par

variable {R : Type}

theorem mapEvents_same (cond : List (Nat × Nat)) (eval : Store → List Rat → Except Err R) (events : List (List Rat)) :
    ∀ s, SameLimits s (mapEvents cond eval events s).1 := by
  induction events with
  | nil => exact fun s => SameLimits.refl s
  | cons e es ih =>
    intro s
    have h1 : SameLimits s (assignEvent cond s e) := assignAll_same _ _
    unfold mapEvents
    simp only
    cases eval (assignEvent cond s e) e with
    | error err => exact h1
    | ok v =>
      have h2 := ih (assignEvent cond s e)
      rcases hr : mapEvents cond eval es (assignEvent cond s e) with ⟨s'', _ | vs⟩
      · rw [hr] at h2
        exact h1.trans h2
      · rw [hr] at h2
        exact h1.trans h2

theorem mapEvents_untouched (cond : List (Nat × Nat)) (eval : Store → List Rat → Except Err R) (events : List (List Rat))
    (j : Nat) (hj : j ∉ cond.map (·.1)) : ∀ s, (mapEvents cond eval events s).1 j = s j := by
  induction events with
  | nil => exact fun s => rfl
  | cons e es ih =>
    intro s
    have h1 : (assignEvent cond s e) j = s j := assignAll_untouched _ _ _ (by simpa using hj)
    unfold mapEvents
    simp only
    cases eval (assignEvent cond s e) e with
    | error err => exact h1
    | ok v =>
      have h2 := ih (assignEvent cond s e)
      rcases hr : mapEvents cond eval es (assignEvent cond s e) with ⟨s'', _ | vs⟩
      · rw [hr] at h2
        exact h2.trans h1
      · rw [hr] at h2
        exact h2.trans h1

/-- C29, `pdf`: for every mapping of parameters to columns, all data and any behaviour of the wrapped PDF, including
raising in the middle, evaluating the conditional PDF leaves the value of every parameter as it was. Missing from the full claim: the cases
of `conditional_integrate_violated`, `conditional_sample_violated`. -/
theorem conditional_pdf_restores_partial (cond : List (Nat × Nat)) (eval : Store → List Rat → Except Err R)
    (events : List (List Rat)) (s : Store) (hp : ProperStore s) (i : Nat) :
    ((condPdf cond eval events s).1 i).value = (s i).value := by
  have hb : cond.map (fun c => (c.1, (s c.1).value)) =
      (cond.map (fun c => (c.1, (0 : Rat)))).map (fun iv => (iv.1, (s iv.1).value)) := by simp
  have hmem : (cond.map (fun c => (c.1, (0 : Rat)))).map (·.1) = cond.map (·.1) := by simp
  have hfst : (cond.map (fun c => (c.1, (s c.1).value))).map (·.1) = cond.map (·.1) := by simp
  obtain ⟨g1, g2⟩ := restore hp (SameLimits.refl s) (cond.map (fun c => (c.1, (0 : Rat))))
  rw [← hb] at g1 g2
  rw [hmem] at g2
  have hs1 := setAll_same s (cond.map (fun c => (c.1, (s c.1).value)))
  have hu1 := fun hj => setAll_untouched s (cond.map (fun c => (c.1, (s c.1).value))) i (by rw [hfst]; exact hj)
  unfold condPdf
  simp only
  rcases hr : setAll s (cond.map (fun c => (c.1, (s c.1).value))) with ⟨s', e⟩
  rw [hr] at g1 g2 hs1 hu1
  simp only at g1
  subst g1
  have hs2 := hs1.trans (mapEvents_same cond eval events s')
  have hu2 := fun hj => mapEvents_untouched cond eval events i hj s'
  obtain ⟨k1, k2⟩ := restore hp hs2 (cond.map (fun c => (c.1, (0 : Rat))))
  rw [← hb] at k1 k2
  rw [hmem] at k2
  have hu3 := fun hj => setAll_untouched (mapEvents cond eval events s').1
    (cond.map (fun c => (c.1, (s c.1).value))) i (by rw [hfst]; exact hj)
  rcases hr' : setAll (mapEvents cond eval events s').1 (cond.map (fun c => (c.1, (s c.1).value))) with ⟨s'', e⟩
  rw [hr'] at k1 k2 hu3
  simp only at k1
  subst k1
  simp only [hr, hr']
  by_cases hi : i ∈ cond.map (·.1)
  · exact k2 i hi
  · have h3 : s'' i = _ := hu3 hi
    have h1 : s' i = _ := hu1 hi
    rw [h3, hu2 hi, h1]

/-- The parameters the wrapped PDF is evaluated with for an event: the conditional ones have the event's columns. -/
theorem conditional_event_parameters (cond : List (Nat × Nat)) (hnd : (cond.map (·.1)).Nodup) (s : Store) (e : List Rat) :
    (∀ c ∈ cond, (assignEvent cond s e) c.1 = (s c.1).assign (e.getD c.2 0)) ∧
    (∀ j, j ∉ cond.map (·.1) → (assignEvent cond s e) j = s j) := by
  refine ⟨?_, fun j hj => assignAll_untouched _ _ _ (by simpa using hj)⟩
  intro c hc
  unfold assignEvent
  apply assignAll_const
  · simpa using ⟨c.2, hc⟩
  · intro iv hiv he
    obtain ⟨d, hd, rfl⟩ := List.mem_map.1 hiv
    simp only at he ⊢
    have := List.inj_on_of_nodup_map hnd hd hc he
    rw [this]

/-- C29: the values of `pdf` are those of the wrapped PDF, event by event, with the conditional parameters set to the
columns of that event (here for a wrapped PDF that looks at the parameters' values only and does not raise). -/
theorem conditional_pdf_value (cond : List (Nat × Nat)) (hnd : (cond.map (·.1)).Nodup)
    (f : (Nat → Param) → List Rat → R) (events : List (List Rat)) (s : Store)
    (hf : ∀ s1 s2 : Store, (∀ i, (s1 i).value = (s2 i).value) → f s1 = f s2) (hp : ProperStore s) :
    (condPdf cond (fun s e => .ok (f s e)) events s).2 = .ok (events.map (fun e => f (assignEvent cond s e) e)) := by
  have hb : cond.map (fun c => (c.1, (s c.1).value)) =
      (cond.map (fun c => (c.1, (0 : Rat)))).map (fun iv => (iv.1, (s iv.1).value)) := by simp
  have hfst : (cond.map (fun c => (c.1, (s c.1).value))).map (·.1) = cond.map (·.1) := by simp
  obtain ⟨g1, g2⟩ := restore hp (SameLimits.refl s) (cond.map (fun c => (c.1, (0 : Rat))))
  rw [← hb] at g1 g2
  have hs1 := setAll_same s (cond.map (fun c => (c.1, (s c.1).value)))
  have hu1 := fun j hj => setAll_untouched s (cond.map (fun c => (c.1, (s c.1).value))) j (by rw [hfst]; exact hj)
  -- the values of the loop depend only on the parameters that are not conditional
  have key : ∀ (events : List (List Rat)) (s1 : Store), SameLimits s s1 →
      (∀ j, j ∉ cond.map (·.1) → s1 j = s j) →
      (mapEvents cond (fun s e => Except.ok (f s e)) events s1).2 = .ok (events.map (fun e => f (assignEvent cond s e) e)) := by
    intro events
    induction events with
    | nil => intros; rfl
    | cons e es ih =>
      intro s1 hl hj
      have h1 := conditional_event_parameters cond hnd s1 e
      have h2 := conditional_event_parameters cond hnd s e
      have heq : f (assignEvent cond s1 e) = f (assignEvent cond s e) := by
        apply hf
        intro i
        by_cases hi : i ∈ cond.map (·.1)
        · obtain ⟨c, hc, rfl⟩ := List.mem_map.1 hi
          rw [h1.1 c hc, h2.1 c hc, assign_value, assign_value, (hl c.1).1, (hl c.1).2]
        · rw [h1.2 i hi, h2.2 i hi, hj i hi]
      have ih' := ih (assignEvent cond s1 e) (hl.trans (assignAll_same _ _))
        (fun j hj' => (h1.2 j hj').trans (hj j hj'))
      unfold mapEvents
      simp only
      rcases hr : mapEvents cond (fun s e => Except.ok (f s e)) es (assignEvent cond s1 e) with ⟨s'', r⟩
      rw [hr] at ih'
      simp only at ih'
      subst ih'
      simp [heq]
  unfold condPdf
  simp only
  rcases hr : setAll s (cond.map (fun c => (c.1, (s c.1).value))) with ⟨s', e⟩
  rw [hr] at g1 hs1 hu1
  simp only at g1
  subst g1
  have hv := key events s' hs1 hu1
  obtain ⟨k1, _⟩ := restore hp (hs1.trans (mapEvents_same cond (fun s e => Except.ok (f s e)) events s'))
    (cond.map (fun c => (c.1, (0 : Rat))))
  rw [← hb] at k1
  rcases hr' : setAll (mapEvents cond (fun s e => Except.ok (f s e)) events s').1
    (cond.map (fun c => (c.1, (s c.1).value))) with ⟨s'', e⟩
  rw [hr'] at k1
  simp only at k1
  subst k1
  simp only [hr, hr']
  exact hv

/-- C29, `sample`: another number of events than given is refused, and what is drawn for an event is followed by it. -/
theorem conditional_sample_rows (cond : List (Nat × Nat)) (draw : Store → List Rat → Except Err (List Rat)) (n : Nat)
    (events : List (List Rat)) (s : Store) :
    (n ≠ events.length → condSample cond draw n events s = (s, .error .invalidArgument)) ∧
    (∀ s' rows, condSample cond draw n events s = (s', .ok rows) →
      ∃ vs, (mapEvents cond draw events s).2 = .ok vs ∧ rows = (vs.zip events).map (fun p => p.1 ++ p.2)) := by
  unfold condSample
  refine ⟨fun h => by rw [if_pos h], ?_⟩
  intro s' rows h
  split at h
  · cases h
  · rcases hr : mapEvents cond draw events s with ⟨t, _ | vs⟩
    · rw [hr] at h
      simp at h
    · rw [hr] at h
      simp only [Prod.mk.injEq, Except.ok.injEq] at h
      exact ⟨vs, rfl, h.2.symm⟩

/-- C29 is violated by `integrate`: the parameter keeps the value of the last event. -/
theorem conditional_integrate_violated :
    ((condIntegrate [(0, 1)] (fun s _ => .ok (s 0).value) [[0, 3], [0, 7]] exStore).1 0).value = 7 ∧
    (exStore 0).value = 5 := by decide +kernel

/-- C29 is violated by `sample`. -/
theorem conditional_sample_violated :
    ((condSample [(0, 1)] (fun s _ => .ok [(s 0).value]) 2 [[0, 3], [0, 7]] exStore).1 0).value = 7 ∧
    (exStore 0).value = 5 := by decide +kernel

/-- non-vacuity: `pdf` on two events sets the parameter to the second column and restores it -/
example : (condPdf [(0, 1)] (fun s e => .ok ((s 0).value + e.getD 0 0)) [[10, 3], [20, 7]] exStore).2 = .ok [13, 27] ∧
    ((condPdf [(0, 1)] (fun s e => .ok ((s 0).value + e.getD 0 0)) [[10, 3], [20, 7]] exStore).1 0).value = 5 := by
  decide +kernel

end Zfit.Functor
