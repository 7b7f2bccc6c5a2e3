import Verif.Num.AnalyticModel
import Mathlib.Tactic.NormNum
import Mathlib.Tactic.Positivity
import Mathlib.Data.List.Induction

/-! Properties of the registry of analytic integrals (C60). -/

namespace Zfit.Num

open Zfit

/-- `l` covers `b`: on every axis the lower limit is not above and the upper limit not below; `none` covers everything. -/
def Covers (l b : Box) : Prop :=
  List.Forall₂ (fun x y : Option Rat × Option Rat =>
    (∀ a, x.1 = some a → ∃ a', y.1 = some a' ∧ a ≤ a') ∧ (∀ a, x.2 = some a → ∃ a', y.2 = some a' ∧ a' ≤ a)) l b

/-! ### the best of a list -/

theorem best_none (l : List Reg) : best l = none ↔ l = [] := by
  cases l with
  | nil => simp [best]
  | cons r l =>
    unfold best
    cases best l with
    | none => simp
    | some r' => simp only; split <;> simp

theorem best_spec (l : List Reg) (r : Reg) (h : best l = some r) :
    ∃ pre post, l = pre ++ r :: post ∧ (∀ x ∈ pre, x.priority < r.priority) ∧ (∀ x ∈ post, x.priority ≤ r.priority) := by
  induction l generalizing r with
  | nil => cases h
  | cons x l ih =>
    unfold best at h
    cases hb : best l with
    | none =>
      rw [hb] at h
      cases h
      rw [best_none] at hb
      exact ⟨[], [], by rw [hb]; rfl, by simp, by simp⟩
    | some r' =>
      rw [hb] at h
      simp only at h
      obtain ⟨pre, post, h1, h2, h3⟩ := ih r' hb
      by_cases hp : x.priority < r'.priority
      · rw [if_pos hp] at h
        cases h
        refine ⟨x :: pre, post, by rw [h1]; rfl, ?_, h3⟩
        intro y hy
        rcases List.mem_cons.1 hy with rfl | hy
        · exact hp
        · exact h2 y hy
      · rw [if_neg hp] at h
        cases h
        refine ⟨[], l, rfl, by simp, ?_⟩
        intro y hy
        rw [h1] at hy
        rcases List.mem_append.1 hy with hy | hy
        · have := h2 y hy; omega
        · rcases List.mem_cons.1 hy with rfl | hy
          · omega
          · have := h3 y hy; omega

/-! ### what is in effect -/

/-- No two registrations for the same axes have limits that compare equal without being equal. -/
def Separated (h : List Reg) : Prop :=
  ∀ r ∈ h, ∀ r' ∈ h, r.axes = r'.axes → sameLimits r.box r'.box = true → r.box = r'.box

/-- `r` is the last registration of the history for its axes and limits. -/
def LastOf (h : List Reg) (r : Reg) : Prop :=
  ∃ pre post, h = pre ++ r :: post ∧ ∀ x ∈ post, ¬ (x.axes = r.axes ∧ x.box = r.box)

theorem closeAny_self (rel : Bool) (a : Option Rat) : closeAny rel a a = true := by
  cases a with
  | none => rfl
  | some a =>
    have h1 : |a - a| = 0 := by simp
    have h2 := abs_nonneg a
    cases rel
    · simp [closeAny]
    · simp only [closeAny, if_true, h1, decide_eq_true_eq]
      positivity

theorem sameLimits_self (b : Box) : sameLimits b b = true := by
  unfold sameLimits
  simp only
  generalize (Box.hasAny b || Box.hasAny b) = rel
  induction b with
  | nil => rfl
  | cons l b ih => simp [closeAny_self, ih]

/-- What the registry contains. -/
structure Inv (h : List Reg) (s : List Slot) : Prop where
  key : ∀ x ∈ s, x.key = x.reg.box
  last : ∀ x ∈ s, LastOf h x.reg
  all : ∀ r ∈ h, ∃ x ∈ s, x.reg.axes = r.axes ∧ x.reg.box = r.box

theorem last_old {h : List Reg} {x r : Reg} (hx : LastOf h x) (hne : ¬ (r.axes = x.axes ∧ r.box = x.box)) :
    LastOf (h ++ [r]) x := by
  obtain ⟨pre, post, rfl, hp⟩ := hx
  refine ⟨pre, post ++ [r], by simp, ?_⟩
  intro y hy
  rcases List.mem_append.1 hy with hy | hy
  · exact hp y hy
  · rw [List.mem_singleton] at hy
    subst hy
    exact hne

theorem last_new (h : List Reg) (r : Reg) : LastOf (h ++ [r]) r := ⟨h, [], rfl, by simp⟩

theorem last_mem {h : List Reg} {x : Reg} (hx : LastOf h x) : x ∈ h := by
  obtain ⟨pre, post, rfl, _⟩ := hx
  simp

/-- The slots other than the one that is replaced do not have the limits of the new one. -/
theorem register_mem (s : List Slot) (r : Reg) (x : Slot) (hx : x ∈ register s r) :
    (x.reg = r ∧ (x.key = r.box ∨ ∃ y ∈ s, y.key = x.key ∧ y.reg.axes = r.axes ∧ sameLimits y.key r.box = true)) ∨ x ∈ s := by
  induction s with
  | nil =>
    simp only [register, List.mem_singleton] at hx
    subst hx
    exact Or.inl ⟨rfl, Or.inl rfl⟩
  | cons y s ih =>
    unfold register at hx
    split at hx
    · rename_i hc
      rcases List.mem_cons.1 hx with rfl | hx
      · exact Or.inl ⟨rfl, Or.inr ⟨y, List.mem_cons_self, rfl, hc⟩⟩
      · exact Or.inr (List.mem_cons_of_mem _ hx)
    · rcases List.mem_cons.1 hx with rfl | hx
      · exact Or.inr List.mem_cons_self
      · rcases ih hx with ⟨h1, h2 | ⟨z, hz, h3⟩⟩ | h1
        · exact Or.inl ⟨h1, Or.inl h2⟩
        · exact Or.inl ⟨h1, Or.inr ⟨z, List.mem_cons_of_mem _ hz, h3⟩⟩
        · exact Or.inr (List.mem_cons_of_mem _ h1)

theorem register_has (s : List Slot) (r : Reg) : ∃ x ∈ register s r, x.reg = r := by
  induction s with
  | nil => exact ⟨⟨r.box, r⟩, by simp [register], rfl⟩
  | cons y s ih =>
    unfold register
    split
    · exact ⟨_, List.mem_cons_self, rfl⟩
    · obtain ⟨x, hx, he⟩ := ih
      exact ⟨x, List.mem_cons_of_mem _ hx, he⟩

theorem register_keeps (s : List Slot) (r : Reg) (y : Slot) (hy : y ∈ s) :
    y ∈ register s r ∨ (y.reg.axes = r.axes ∧ sameLimits y.key r.box = true) := by
  induction s with
  | nil => cases hy
  | cons z s ih =>
    unfold register
    rcases List.mem_cons.1 hy with rfl | hy
    · split
      · rename_i hc; exact Or.inr hc
      · exact Or.inl List.mem_cons_self
    · split
      · exact Or.inl (List.mem_cons_of_mem _ hy)
      · rcases ih hy with h | h
        · exact Or.inl (List.mem_cons_of_mem _ h)
        · exact Or.inr h

/-- Axes and limits determine a slot (no two slots with the same). -/
def Distinct (s : List Slot) : Prop := s.Pairwise fun x y => ¬ (x.reg.axes = y.reg.axes ∧ x.reg.box = y.reg.box)

theorem register_inv (h : List Reg) (s : List Slot) (r : Reg) (hsep : Separated (h ++ [r])) (hi : Inv h s) (hd : Distinct s) :
    Inv (h ++ [r]) (register s r) ∧ Distinct (register s r) := by
  have memL : ∀ x ∈ s, x.reg ∈ h ++ [r] := fun x hx => List.mem_append_left _ (last_mem (hi.last x hx))
  have memR : r ∈ h ++ [r] := by simp
  have eqkey : ∀ y ∈ s, y.reg.axes = r.axes → sameLimits y.key r.box = true → y.reg.box = r.box := by
    intro y hy ha hs
    rw [hi.key y hy] at hs
    exact hsep _ (memL y hy) _ memR ha hs
  -- by induction over the slots: everything but `last` for untouched slots is local
  have loc : ∀ t : List Slot, (∀ x ∈ t, x ∈ s) → t.Pairwise (fun x y => ¬ (x.reg.axes = y.reg.axes ∧ x.reg.box = y.reg.box)) →
      Distinct (register t r) ∧ ∀ x ∈ register t r, x.reg = r ∨ (x ∈ t ∧ ¬ (r.axes = x.reg.axes ∧ r.box = x.reg.box)) := by
    intro t
    induction t with
    | nil =>
      intro _ _
      simp [register, Distinct]
    | cons y t ih =>
      intro ht hp
      rw [List.pairwise_cons] at hp
      unfold register
      by_cases hc : y.reg.axes = r.axes ∧ sameLimits y.key r.box = true
      · rw [if_pos hc]
        have hb := eqkey y (ht y List.mem_cons_self) hc.1 hc.2
        constructor
        · unfold Distinct
          rw [List.pairwise_cons]
          refine ⟨?_, hp.2⟩
          intro z hz
          simp only
          rw [← hc.1, ← hb]
          exact hp.1 z hz
        · intro x hx
          rcases List.mem_cons.1 hx with rfl | hx
          · exact Or.inl rfl
          · refine Or.inr ⟨List.mem_cons_of_mem _ hx, ?_⟩
            rw [← hc.1, ← hb]
            exact hp.1 x hx
      · rw [if_neg hc]
        obtain ⟨h1, h2⟩ := ih (fun x hx => ht x (List.mem_cons_of_mem _ hx)) hp.2
        have hne : ¬ (r.axes = y.reg.axes ∧ r.box = y.reg.box) := by
          rintro ⟨e1, e2⟩
          apply hc
          refine ⟨e1.symm, ?_⟩
          rw [hi.key y (ht y List.mem_cons_self), ← e2]
          exact sameLimits_self _
        constructor
        · unfold Distinct
          rw [List.pairwise_cons]
          refine ⟨?_, h1⟩
          intro z hz
          rcases h2 z hz with he | ⟨hz', _⟩
          · rw [he]
            rintro ⟨e1, e2⟩
            exact hne ⟨e1.symm, e2.symm⟩
          · exact hp.1 z hz'
        · intro x hx
          rcases List.mem_cons.1 hx with rfl | hx
          · exact Or.inr ⟨List.mem_cons_self, hne⟩
          · rcases h2 x hx with he | ⟨hx', hn⟩
            · exact Or.inl he
            · exact Or.inr ⟨List.mem_cons_of_mem _ hx', hn⟩
  obtain ⟨d, l⟩ := loc s (fun _ h => h) hd
  refine ⟨⟨?_, ?_, ?_⟩, d⟩
  · intro x hx
    rcases register_mem s r x hx with ⟨h1, h2 | ⟨y, hy, h3, h4, h5⟩⟩ | h1
    · rw [h1]; exact h2
    · rw [← h3, hi.key y hy, h1]
      exact eqkey y hy h4 h5
    · exact hi.key x h1
  · intro x hx
    rcases l x hx with h1 | ⟨h1, h2⟩
    · rw [h1]; exact last_new h r
    · exact last_old (hi.last x h1) h2
  · intro r' hr'
    rcases List.mem_append.1 hr' with hr' | hr'
    · obtain ⟨y, hy, h1, h2⟩ := hi.all r' hr'
      rcases register_keeps s r y hy with hk | ⟨ha, hs⟩
      · exact ⟨y, hk, h1, h2⟩
      · have hb := eqkey y hy ha hs
        obtain ⟨x, hx, he⟩ := register_has s r
        exact ⟨x, hx, by rw [he, ← ha, h1], by rw [he, ← hb, h2]⟩
    · rw [List.mem_singleton] at hr'
      subst hr'
      obtain ⟨x, hx, he⟩ := register_has s r'
      exact ⟨x, hx, by rw [he], by rw [he]⟩

theorem registered_inv (h : List Reg) (hs : Separated h) : Inv h (registered h) ∧ Distinct (registered h) := by
  suffices H : ∀ (h h0 : List Reg) (s : List Slot), Separated (h0 ++ h) → Inv h0 s → Distinct s →
      Inv (h0 ++ h) (h.foldl register s) ∧ Distinct (h.foldl register s) from
    H h [] [] hs ⟨by simp, by simp, by simp⟩ List.Pairwise.nil
  intro h
  induction h with
  | nil => intro h0 s _ hi hd; rw [List.append_nil]; exact ⟨hi, hd⟩
  | cons r h ih =>
    intro h0 s hs hi hd
    have hs' : Separated (h0 ++ [r]) := by
      intro a ha b hb
      refine hs a ?_ b ?_
      · rcases List.mem_append.1 ha with h | h
        · exact List.mem_append_left _ h
        · exact List.mem_append_right _ (by rw [List.mem_singleton] at h; rw [h]; exact List.mem_cons_self)
      · rcases List.mem_append.1 hb with h | h
        · exact List.mem_append_left _ h
        · exact List.mem_append_right _ (by rw [List.mem_singleton] at h; rw [h]; exact List.mem_cons_self)
    obtain ⟨h1, h2⟩ := register_inv h0 s r hs' hi hd
    have := ih (h0 ++ [r]) (register s r) (by rw [List.append_assoc]; exact hs) h1 h2
    rw [List.append_assoc] at this
    exact this

/-- C60, as far as it holds: after any history of registrations whose limits do not compare equal without being equal,
`integrate` uses a registration that is the last one for its axes and limits, that matches the request, and that has the
highest priority among all of these; and it raises `AnalyticIntegralNotImplemented` exactly when none matches.  (What
"matches" should mean, and what it means, is below.) Missing from the full claim: the cases of `analytic_cover_violated`,
`analytic_any_replaced_violated`. -/
theorem analytic_choice_partial (h : List Reg) (hs : Separated h) (axes : List ℕ) (limits : Box) :
    (∀ f, choose (registered h) axes limits = .ok f → ∃ r, LastOf h r ∧ r.func = f ∧ r.matches axes limits = true ∧
      ∀ r', LastOf h r' → r'.matches axes limits = true → r'.priority ≤ r.priority) ∧
    (∀ e, choose (registered h) axes limits = .error e → e = .analyticNotImplemented ∧
      ∀ r ∈ h, r.matches axes limits = false) := by
  obtain ⟨hi, _⟩ := registered_inv h hs
  -- a registration that is the last one for its axes and limits is in the registry
  have lastUnique : ∀ r r' : Reg, LastOf h r → LastOf h r' → r.axes = r'.axes → r.box = r'.box → r = r' := by
    rintro r r' ⟨pre, post, h1, h2⟩ ⟨pre', post', h1', h2'⟩ ha hb
    rw [h1] at h1'
    rcases List.append_eq_append_iff.1 h1' with ⟨m, e1, e2⟩ | ⟨m, e1, e2⟩
    · rcases m with _ | ⟨y, m⟩
      · simp only [List.nil_append, List.cons.injEq] at e2
        exact e2.1
      · simp only [List.cons_append, List.cons.injEq] at e2
        obtain ⟨rfl, e2⟩ := e2
        exact (h2 r' (by rw [e2]; simp) ⟨ha.symm, hb.symm⟩).elim
    · rcases m with _ | ⟨y, m⟩
      · simp only [List.nil_append, List.cons.injEq] at e2
        exact e2.1.symm
      · simp only [List.cons_append, List.cons.injEq] at e2
        obtain ⟨rfl, e2⟩ := e2
        exact (h2' r (by rw [e2]; simp) ⟨ha, hb⟩).elim
  have inReg : ∀ r, LastOf h r → ∃ x ∈ registered h, x.reg = r := by
    intro r hr
    obtain ⟨x, hx, h1, h2⟩ := hi.all r (last_mem hr)
    exact ⟨x, hx, lastUnique _ _ (hi.last x hx) hr h1 h2⟩
  constructor
  · intro f hf
    unfold choose at hf
    split at hf
    · cases hf
    · rename_i r hb
      cases hf
      obtain ⟨pre, post, h1, h2, h3⟩ := best_spec _ r hb
      have hr : r ∈ ((registered h).map (·.reg)).filter fun r => r.matches axes limits := by rw [h1]; simp
      rw [List.mem_filter] at hr
      obtain ⟨x, hx, rfl⟩ := List.mem_map.1 hr.1
      refine ⟨_, hi.last x hx, rfl, hr.2, ?_⟩
      intro r' hr' hm
      obtain ⟨y, hy, rfl⟩ := inReg r' hr'
      have : y.reg ∈ ((registered h).map (·.reg)).filter fun r => r.matches axes limits :=
        List.mem_filter.2 ⟨List.mem_map.2 ⟨y, hy, rfl⟩, hm⟩
      rw [h1] at this
      rcases List.mem_append.1 this with ht | ht
      · exact Int.le_of_lt (h2 _ ht)
      · rcases List.mem_cons.1 ht with ht | ht
        · rw [ht]
        · exact h3 _ ht
  · intro e he
    unfold choose at he
    split at he
    · rename_i hb
      cases he
      refine ⟨rfl, ?_⟩
      intro r hr
      rw [best_none, List.filter_eq_nil_iff] at hb
      obtain ⟨x, hx, h1, h2⟩ := hi.all r hr
      have := hb x.reg (List.mem_map.2 ⟨x, hx, rfl⟩)
      unfold Reg.matches at this ⊢
      rw [h1, h2] at this
      simpa using this
    · cases he

/-- C60: the usual case: an integral registered with `ANY` limits matches every request with its axes. -/
theorem any_matches (r : Reg) (hr : r.box.allAny = true) (limits : Box) : r.matches r.axes limits = true := by
  simp [Reg.matches, lessEqual, hr]

/-- C60: limits that are `ANY` for some observables only: an integral matches if on every axis its limit is `ANY` or equal
to the one of the request. -/
theorem any_axis_matches (r : Reg) (limits : Box)
    (h : List.Forall₂ (fun a b : Option Rat × Option Rat => (a.1 = none ∨ a.1 = b.1) ∧ (a.2 = none ∨ a.2 = b.2)) r.box limits) :
    r.matches r.axes limits = true := by
  have key : ∀ {l b : Box},
      List.Forall₂ (fun a b : Option Rat × Option Rat => (a.1 = none ∨ a.1 = b.1) ∧ (a.2 = none ∨ a.2 = b.2)) l b →
      (List.zipWith (fun l1 l2 : Option Rat × Option Rat => leAny l1.1 l2.1 && leAny l1.2 l2.2) b l).all id = true := by
    intro l b h
    have one : ∀ x y : Option Rat, (x = none ∨ x = y) → leAny y x = true := by
      intro x y h
      rcases h with rfl | rfl
      · cases y <;> rfl
      · cases x with
        | none => rfl
        | some a => simp [leAny]
    induction h with
    | nil => rfl
    | cons hx _ ih =>
      rw [List.zipWith_cons_cons, List.all_cons, ih, one _ _ hx.1, one _ _ hx.2]
      rfl
  unfold Reg.matches lessEqual
  rw [decide_eq_true rfl, Bool.true_and]
  split
  · rfl
  · exact key h

/-- Such a case: `ANY` for the first axis, [0, 1] for the second; not used for other limits of the second. -/
example : (⟨[0, 1], [(none, none), (some 0, some 1)], 50, 3⟩ : Reg).matches [0, 1] [(some 7, some 9), (some 0, some 1)] = true
    ∧ (⟨[0, 1], [(none, none), (some 0, some 1)], 50, 3⟩ : Reg).matches [0, 1] [(some 7, some 9), (some 0, some 2)] = false := by
  decide +kernel

/-- Two limits of an axis count as the same within a tolerance `tol` of numbers; `ANY` is the same as everything. -/
def SameAxis (tol : Rat → Rat → Prop) (l l' : Option Rat × Option Rat) : Prop :=
  (∀ a b, l.1 = some a → l'.1 = some b → tol a b) ∧ ∀ a b, l.2 = some a → l'.2 = some b → tol a b

theorem closeAny_iff (rel : Bool) (x y : Option Rat) :
    closeAny rel x y = true ↔ ∀ a b, x = some a → y = some b →
      if rel = true then |a - b| ≤ |b| * (1 / 100000) + 1 / 100000000 else |a - b| < 1 / 100000000 := by
  cases x with
  | none => simp [closeAny]
  | some a =>
    cases y with
    | none => simp [closeAny]
    | some b => cases rel <;> simp [closeAny]

/-- C60: when a registration replaces an earlier one for the same axes: limits without `ANY` have to agree up to 1e-8; if `ANY` occurs anywhere in one of
them, the limits other than `ANY` have to agree up to 1e-5 of the new ones. -/
theorem same_limits_iff (b b' : Box) (hlen : b.length = b'.length) :
    ((∀ l ∈ b ++ b', l.1 ≠ none ∧ l.2 ≠ none) →
      (sameLimits b b' = true ↔ List.Forall₂ (SameAxis fun x y => |x - y| < 1 / 100000000) b b')) ∧
    ((∃ l ∈ b ++ b', l.1 = none ∨ l.2 = none) →
      (sameLimits b b' = true ↔ List.Forall₂ (SameAxis fun x y => |x - y| ≤ |y| * (1 / 100000) + 1 / 100000000) b b')) := by
  have key : ∀ rel : Bool, ((List.zipWith (fun l1 l2 => closeAny rel l1.1 l2.1 && closeAny rel l1.2 l2.2) b b').all id = true ↔
      List.Forall₂ (SameAxis fun x y => if rel = true then |x - y| ≤ |y| * (1 / 100000) + 1 / 100000000 else |x - y| < 1 / 100000000) b b') := by
    intro rel
    induction b generalizing b' with
    | nil =>
      cases b' with
      | nil => simp
      | cons _ _ => simp at hlen
    | cons l b ih =>
      cases b' with
      | nil => simp at hlen
      | cons l' b' =>
        rw [List.zipWith_cons_cons, List.all_cons, Bool.and_eq_true, ih b' (by simpa using hlen), List.forall₂_cons, id_eq, Bool.and_eq_true,
          closeAny_iff, closeAny_iff]
        rfl
  constructor
  · intro h
    have hrel : (Box.hasAny b || Box.hasAny b') = false := by
      rw [Box.hasAny, Box.hasAny, ← List.any_append, List.any_eq_false]
      intro l hl
      have := h l hl
      simp only [Bool.or_eq_true, Option.isNone_iff_eq_none, not_or]
      exact this
    unfold sameLimits
    simp only [hrel]
    exact key false
  · rintro ⟨l, hl, h⟩
    have hrel : (Box.hasAny b || Box.hasAny b') = true := by
      rw [Box.hasAny, Box.hasAny, ← List.any_append, List.any_eq_true]
      exact ⟨l, hl, by simpa only [Bool.or_eq_true, Option.isNone_iff_eq_none] using h⟩
    unfold sameLimits
    simp only [hrel]
    exact key true

theorem closeAny_none (rel : Bool) (a : Option Rat) : closeAny rel none a = true ∧ closeAny rel a none = true := by
  cases a <;> exact ⟨rfl, rfl⟩

theorem same_any (b b' : Box) (hb : b.allAny = true) : sameLimits b b' = true := by
  unfold sameLimits
  simp only
  generalize (Box.hasAny b || Box.hasAny b') = rel
  induction b generalizing b' with
  | nil => rfl
  | cons l b ih =>
    cases b' with
    | nil => rfl
    | cons l' b' =>
      simp only [Box.allAny, List.all_cons, Bool.and_eq_true, Option.isNone_iff_eq_none] at hb
      simp only [List.zipWith_cons_cons, List.all_cons, id_eq, Bool.and_eq_true]
      refine ⟨⟨?_, ?_⟩, ih b' hb.2⟩
      · rw [hb.1.1]; exact (closeAny_none rel _).1
      · rw [hb.1.2]; exact (closeAny_none rel _).1

/-- C60: if all registrations for some axes have `ANY` limits (as in all of zfit's own pdfs), a request with these axes is
answered by the last one of them, whatever its limits; without one it raises. -/
theorem analytic_any (h : List Reg) (axes : List ℕ) (limits : Box) (hany : ∀ r ∈ h, r.axes = axes → r.box.allAny = true) :
    choose (registered h) axes limits =
      match (h.filter fun r => decide (r.axes = axes)).getLast? with
      | some r => .ok r.func
      | none => .error .analyticNotImplemented := by
  have key : ∀ (h : List Reg), (∀ r ∈ h, r.axes = axes → r.box.allAny = true) →
      (((registered h).filter fun x => decide (x.reg.axes = axes)).map (·.reg) =
        ((h.filter fun r => decide (r.axes = axes)).getLast?).toList) ∧
      ∀ x ∈ registered h, x.reg.axes = axes → x.key.allAny = true := by
    intro h
    induction h using List.reverseRecOn with
    | nil => intro _; simp [registered]
    | append_singleton h r ih =>
      intro hall
      obtain ⟨i1, i2⟩ := ih (fun x hx => hall x (List.mem_append_left _ hx))
      have hr := hall r (by simp)
      have e : registered (h ++ [r]) = register (registered h) r := by simp [registered]
      rw [e]
      generalize registered h = s at i1 i2
      generalize hF : (h.filter fun r => decide (r.axes = axes)) = F at i1
      rw [List.filter_append, hF]
      by_cases ha : r.axes = axes
      · have hl : (F ++ List.filter (fun r => decide (r.axes = axes)) [r]).getLast? = some r := by simp [ha]
        rw [hl]
        -- at most one slot of these axes, which is replaced; else appended
        have H : ∀ s : List Slot, (s.filter fun x => decide (x.reg.axes = axes)).length ≤ 1 →
            (∀ x ∈ s, x.reg.axes = axes → x.key.allAny = true) →
            (((register s r).filter fun x => decide (x.reg.axes = axes)).map (·.reg) = [r]) ∧
            ∀ x ∈ register s r, x.reg.axes = axes → x.key.allAny = true := by
          intro s
          induction s with
          | nil =>
            intro _ _
            simp only [register]
            refine ⟨by simp [ha], ?_⟩
            intro x hx _
            rw [List.mem_singleton] at hx
            subst hx
            exact hr ha
          | cons y s ih =>
            intro hlen hk
            unfold register
            by_cases hy : y.reg.axes = axes
            · rw [if_pos ⟨by rw [hy, ha], same_any _ _ (hk y List.mem_cons_self hy)⟩]
              rw [List.filter_cons_of_pos (by simpa using hy), List.length_cons] at hlen
              have h0 : s.filter (fun x => decide (x.reg.axes = axes)) = [] := List.length_eq_zero_iff.1 (by omega)
              constructor
              · rw [List.filter_cons_of_pos (by simpa using ha), h0]
                rfl
              · intro x hx hxa
                rcases List.mem_cons.1 hx with rfl | hx
                · exact hk y List.mem_cons_self hy
                · exact hk x (List.mem_cons_of_mem _ hx) hxa
            · rw [if_neg (fun hc => hy (hc.1.trans ha))]
              rw [List.filter_cons_of_neg (by simpa using hy)] at hlen
              obtain ⟨j1, j2⟩ := ih hlen (fun x hx => hk x (List.mem_cons_of_mem _ hx))
              constructor
              · rw [List.filter_cons_of_neg (by simpa using hy)]
                exact j1
              · intro x hx hxa
                rcases List.mem_cons.1 hx with rfl | hx
                · exact (hy hxa).elim
                · exact j2 x hx hxa
        have hlen : (s.filter fun x => decide (x.reg.axes = axes)).length ≤ 1 := by
          have := congrArg List.length i1
          rw [List.length_map] at this
          rw [this]
          cases F.getLast? <;> simp
        exact H s hlen i2
      · have hl : (F ++ List.filter (fun r => decide (r.axes = axes)) [r]) = F := by simp [ha]
        rw [hl, ← i1]
        clear i1 hall hl e
        induction s with
        | nil =>
          simp only [register]
          refine ⟨by simp [ha], ?_⟩
          intro x hx hxa
          rw [List.mem_singleton] at hx
          subst hx
          exact (ha hxa).elim
        | cons y s ih =>
          obtain ⟨j1, j2⟩ := ih (fun x hx => i2 x (List.mem_cons_of_mem _ hx))
          unfold register
          by_cases hc : y.reg.axes = r.axes ∧ sameLimits y.key r.box = true
          · rw [if_pos hc]
            have hy : y.reg.axes ≠ axes := fun he => ha (hc.1 ▸ he)
            constructor
            · rw [List.filter_cons_of_neg (by simpa using ha), List.filter_cons_of_neg (by simpa using hy)]
            · intro x hx hxa
              rcases List.mem_cons.1 hx with rfl | hx
              · exact (ha hxa).elim
              · exact i2 x (List.mem_cons_of_mem _ hx) hxa
          · rw [if_neg hc]
            constructor
            · by_cases hy : y.reg.axes = axes
              · rw [List.filter_cons_of_pos (by simpa using hy), List.filter_cons_of_pos (by simpa using hy),
                  List.map_cons, List.map_cons, j1]
              · rw [List.filter_cons_of_neg (by simpa using hy), List.filter_cons_of_neg (by simpa using hy), j1]
            · intro x hx hxa
              rcases List.mem_cons.1 hx with rfl | hx
              · exact i2 _ List.mem_cons_self hxa
              · exact j2 x hx hxa
  obtain ⟨k1, k2⟩ := key h hany
  have hm : ((registered h).map (·.reg)).filter (fun r => r.matches axes limits) =
      ((registered h).filter fun x => decide (x.reg.axes = axes)).map (·.reg) := by
    rw [List.filter_map]
    congr 1
    apply List.filter_congr
    intro x hx
    simp only [Function.comp_apply, Reg.matches]
    by_cases hxa : x.reg.axes = axes
    · have hmem : x.reg ∈ ((registered h).filter fun x => decide (x.reg.axes = axes)).map (·.reg) :=
        List.mem_map.2 ⟨x, List.mem_filter.2 ⟨hx, by simpa using hxa⟩, rfl⟩
      rw [k1] at hmem
      have hh : x.reg ∈ h := by
        cases hg : (h.filter fun r => decide (r.axes = axes)).getLast? with
        | none => rw [hg] at hmem; cases hmem
        | some r =>
          rw [hg] at hmem
          simp only [Option.toList_some, List.mem_singleton] at hmem
          rw [hmem]
          exact (List.mem_filter.1 (List.mem_of_getLast? hg)).1
      simp [hxa, lessEqual, hany _ hh hxa]
    · simp [hxa]
  unfold choose
  rw [hm, k1]
  cases (h.filter fun r => decide (r.axes = axes)).getLast? with
  | none => rfl
  | some r => rfl

/-- A history meeting the hypotheses: two limits, one registered twice, different priorities, and other axes. -/
def exHistory : List Reg :=
  [⟨[0], [(some 0, some 10)], 50, 1⟩, ⟨[0], [(some 0, some 20)], 60, 2⟩, ⟨[0, 1], [(none, none), (none, none)], 50, 3⟩,
   ⟨[0], [(some 0, some 20)], 40, 4⟩]

/-- The later registration for [0, 20] replaced the one with the higher priority, so the integral for [0, 10] is used. -/
example : choose (registered exHistory) [0] [(some 0, some 5)] = .ok 1
    ∧ choose (registered exHistory) [0] [(some 0, some 15)] = .ok 4
    ∧ choose (registered exHistory) [0, 1] [(some 0, some 1), (some 5, some 6)] = .ok 3
    ∧ choose (registered exHistory) [1] [(some 0, some 1)] = .error .analyticNotImplemented := by decide +kernel

example : Separated exHistory := by
  unfold Separated exHistory
  decide +kernel

/-- C60 fails for finite limits: an integral registered for [0, 10] is used for [-5, 5], which it does not cover, and not
for [1, 5], which it covers: the comparison of limits requires the *lower* limits to be below as well. -/
theorem analytic_cover_violated :
    choose (registered [⟨[0], [(some 0, some 10)], 50, 1⟩]) [0] [(some (-5), some 5)] = .ok 1
    ∧ choose (registered [⟨[0], [(some 0, some 10)], 50, 1⟩]) [0] [(some 1, some 5)] = .error .analyticNotImplemented
    ∧ Covers [(some 0, some 10)] [(some 1, some 5)] ∧ ¬ Covers [(some 0, some 10)] [(some (-5), some 5)] := by
  refine ⟨by decide +kernel, by decide +kernel, ?_, ?_⟩
  · refine List.Forall₂.cons ⟨?_, ?_⟩ List.Forall₂.nil
    · intro a ha
      cases ha
      exact ⟨1, rfl, by norm_num⟩
    · intro a ha
      cases ha
      exact ⟨5, rfl, by norm_num⟩
  · rintro (_ | ⟨h, _⟩)
    obtain ⟨a', h1, h2⟩ := h.1 0 rfl
    cases h1
    revert h2
    norm_num

/-- C60 fails for special cases of a general integral: registering an integral for [0, 1] after one for `ANY` limits
replaces the general one (`ANY` compares equal to everything), so [0, 5] has no integral any more. -/
theorem analytic_any_replaced_violated :
    choose (registered [⟨[0], [(none, none)], 50, 1⟩]) [0] [(some 0, some 5)] = .ok 1
    ∧ choose (registered [⟨[0], [(none, none)], 50, 1⟩, ⟨[0], [(some 0, some 1)], 50, 2⟩]) [0] [(some 0, some 5)]
      = .error .analyticNotImplemented := by decide +kernel

/-! ### comparing spaces (C71) -/

/-- Numeric limits. -/
def numeric (l : List (Rat × Rat)) : Box := l.map fun x => (some x.1, some x.2)

theorem numeric_not_any (l : List (Rat × Rat)) (h : l ≠ []) : (numeric l).allAny = false := by
  cases l with
  | nil => exact (h rfl).elim
  | cons x l => simp [numeric, Box.allAny]

/-- C71, what holds: `space1 <= space2` for finite limits says that on every axis the upper limit of the first is not above
that of the second (as containment demands) and the lower limit is not above either (the opposite of containment). Missing from the full
claim: the cases of `space_le_violated`. -/
theorem space_le_partial (l1 l2 : List (Rat × Rat)) (h : l1.length = l2.length) :
    lessEqual (numeric l1) (numeric l2) = true ↔ List.Forall₂ (fun x y : Rat × Rat => x.1 ≤ y.1 ∧ x.2 ≤ y.2) l1 l2 := by
  have H : ∀ l1 l2 : List (Rat × Rat), l1.length = l2.length →
      ((List.zipWith (fun l1 l2 : Option Rat × Option Rat => leAny l1.1 l2.1 && leAny l1.2 l2.2) (numeric l1)
        (numeric l2)).all id = true ↔ List.Forall₂ (fun x y : Rat × Rat => x.1 ≤ y.1 ∧ x.2 ≤ y.2) l1 l2) := by
    intro l1
    induction l1 with
    | nil =>
      intro l2 h
      cases l2 with
      | nil => simp [numeric]
      | cons _ _ => simp at h
    | cons x l1 ih =>
      intro l2 h
      cases l2 with
      | nil => simp at h
      | cons y l2 =>
        have := ih l2 (by simpa using h)
        rw [List.forall₂_cons, ← this]
        unfold numeric
        rw [List.map_cons, List.map_cons, List.zipWith_cons_cons, List.all_cons, Bool.and_eq_true]
        simp only [leAny, id_eq, Bool.and_eq_true, decide_eq_true_eq]
  unfold lessEqual
  rcases l1 with _ | ⟨x, l1⟩
  · cases l2 with
    | nil => simp [numeric, Box.allAny]
    | cons _ _ => simp at h
  · rcases l2 with _ | ⟨y, l2⟩
    · simp at h
    · rw [numeric_not_any _ (by simp), numeric_not_any _ (by simp)]
      simp only [Bool.or_self, Bool.false_eq_true, if_false]
      exact H _ _ h

/-- C71 fails: [1, 5] lies within [0, 10] but is not `<=`; [-5, 5] does not and is. -/
theorem space_le_violated :
    lessEqual (numeric [(1, 5)]) (numeric [(0, 10)]) = false ∧ lessEqual (numeric [(-5, 5)]) (numeric [(0, 10)]) = true := by
  decide +kernel

/-- C71: on every axis with the same lower limit `<=` is containment. Missing from the full claim: the cases of `space_le_violated`. -/
theorem space_le_same_lower_partial (l1 l2 : List (Rat × Rat)) (h : List.Forall₂ (fun x y : Rat × Rat => x.1 = y.1) l1 l2) :
    lessEqual (numeric l1) (numeric l2) = true ↔ Covers (numeric l2) (numeric l1) := by
  rw [space_le_partial _ _ h.length_eq]
  unfold Covers numeric
  induction h with
  | nil => simp
  | cons hx _ ih =>
    rw [List.forall₂_cons, ih, List.map_cons, List.map_cons, List.forall₂_cons]
    simp [hx]

example : lessEqual (numeric [(0, 5), (1, 2)]) (numeric [(0, 10), (1, 2)]) = true := by decide +kernel

end Zfit.Num
