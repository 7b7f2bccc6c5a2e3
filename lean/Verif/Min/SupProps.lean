import Verif.Min.SupModel
import Mathlib.Data.List.Basic
import Mathlib.Algebra.Order.Field.Rat

/-!
# What a minimiser says about itself

* C253: `init_seen`, `init_hidden`, `without_init`, `init_flag`
* C254: `own_result_partial`, `empty_result_violated`, `stale_result_violated`
* C255: `maxiter_partial`, `maxiter_property_violated`
* C256: `derivatives_partial`, `subclass_violated`, `shared_violated`
-/

namespace Zfit.Sup

open Zfit Zfit.Min

/-! ## C253 -/

/-- A method that declares `flag` gets the result to start from. -/
def Gets (flag : Flag) (sameType : Bool) : Prop := flag = .yes ∨ flag = .same ∧ sameType = true

section

variable {K R : Type}

/-- **C253, supported.** A method that declares `init=True`, or `init="same"` for a result of a minimiser of exactly its own type, is run as
if it were not decorated: it gets the result. -/
theorem init_seen (flag : Flag) (sameType : Bool) (h : Gets flag sameType) (j : Job K R) (fuel : ℕ) (a : List (ℕ × K)) (v : Values K) :
    callMinimize { j with backend := decorated flag sameType j.backend } fuel (some a) v = callMinimize j fuel (some a) v := by
  have hd : decorated flag sameType j.backend = j.backend := by
    funext hasInit v
    unfold decorated
    rcases h with rfl | ⟨rfl, rfl⟩
    · simp
    · simp
  rw [hd]

theorem decorated_none (flag : Flag) (sameType : Bool) (f g : Bool → Values K → Values K × End R) (hfg : ∀ v, f false v = g false v)
    (v : Values K) : decorated flag sameType f false v = g false v := by
  unfold decorated
  simp [hfg]

theorem call_none (flag : Flag) (sameType : Bool) (j : Job K R) (f : Bool → Values K → Values K × End R)
    (hf : ∀ v, f false v = j.backend false v) : ∀ (fuel : ℕ) (v : Values K),
    callMinimize { j with backend := decorated flag sameType f } fuel none v = callMinimize j fuel none v
  | 0, v => rfl
  | fuel + 1, v => by
    have ih := call_none flag sameType j f hf fuel
    simp only [callMinimize, Option.isSome_none, decorated_none flag sameType f j.backend hf]
    rcases j.backend false v with ⟨v', e⟩
    rcases e with r | _ | _ | e | _ | e <;> simp only [ih] <;> rfl

/-- **C253, not supported.** A method that declares `init=False`, or `init="same"` for a result of another type of minimiser, is run
without the result, from the values of the parameters in the result; whatever it would do with a result does not matter. -/
theorem init_hidden (flag : Flag) (sameType : Bool) (h : ¬ Gets flag sameType) (ho : flag ≠ .other) (j : Job K R)
    (f : Bool → Values K → Values K × End R) (hf : ∀ v, f false v = j.backend false v) (fuel : ℕ) (a : List (ℕ × K)) (v : Values K) :
    callMinimize { j with backend := decorated flag sameType f } (fuel + 1) (some a) v = callMinimize j fuel none (assign a v) := by
  have hd : decorated flag sameType f true v = (v, .initNotImplemented) := by
    unfold decorated
    cases flag with
    | yes => exact absurd (Or.inl rfl) h
    | no => simp
    | same =>
      have : sameType = false := by
        cases sameType
        · rfl
        · exact absurd (Or.inr ⟨rfl, rfl⟩) h
      simp [this]
    | other => exact absurd rfl ho
  simp only [callMinimize, Option.isSome_some, hd]
  exact call_none flag sameType j f hf fuel (assign a v)

/-- **C253.** Without a result to start from the decorator does nothing. -/
theorem without_init (flag : Flag) (sameType : Bool) (j : Job K R) (fuel : ℕ) (v : Values K) :
    callMinimize { j with backend := decorated flag sameType j.backend } fuel none v = callMinimize j fuel none v :=
  call_none flag sameType j j.backend (fun _ => rfl) fuel v

/-- **C253.** Any other true value of the flag is refused with a `ValueError` as soon as there is a result to start from. -/
theorem init_flag (sameType : Bool) (j : Job K R) (fuel : ℕ) (a : List (ℕ × K)) (v : Values K) :
    callMinimize { j with backend := decorated .other sameType j.backend } (fuel + 1) (some a) v = (v, .error .valueError) := by
  simp [callMinimize, decorated]

end

/-- The loss is minimised by adding one to parameter 0; with a result the method returns 1, without 2. -/
def exBackend (hasInit : Bool) (v : Values ℚ) : Values ℚ × End ℕ :=
  (fun i => if i = 0 then v 0 + 1 else v i, .result (if hasInit then 1 else 2))

/-- Both cases occur. -/
example : (callMinimize (K := ℚ) (R := ℕ) ⟨[0], [], none, decorated .same true exBackend, none, true⟩ 3 (some [(0, 5)]) fun _ => 0).2 =
      .ok (some 1) ∧
    (callMinimize (K := ℚ) (R := ℕ) ⟨[0], [], none, decorated .same false exBackend, none, true⟩ 3 (some [(0, 5)]) fun _ => 0).2 =
      .ok (some 2) ∧
    (callMinimize (K := ℚ) (R := ℕ) ⟨[0], [], none, decorated .same false exBackend, none, true⟩ 3 (some [(0, 5)]) fun _ => 0).1 0 = 6 := by
  decide +kernel

/-! ## C254 -/

/-- The result comes from this minimisation: it was returned or stored when NaNs were given up on. -/
def Own {R : Type} (w : Went R) (r : R) : Prop := w = .result r ∨ w = .nan r

/-- **C254, partial.** If the strategy is given as a class, every result that one of several minimisations with the same minimiser returns
comes from that minimisation; a minimisation that fails raises its own exception, unless the strategy is one for toys and gave up on NaNs.
Missing from the full claim: the `RuntimeError` of a loss with a strategy for toys (`empty_result_violated`) and strategies given as
instances (`stale_result_violated`). -/
theorem own_result_partial {R : Type} (s : Strategy) (hs : s.isClass = true) (empty : R) (shared : Option R) (ws : List (Went R)) (i : ℕ)
    (w : Went R) (hw : ws[i]? = some w) (ht : s.toy = true → w ≠ .runtimeError) :
    ∃ o, (minimizeAll s empty shared ws)[i]? = some o ∧ (∀ r, o = .ok r → Own w r) ∧
      (∀ r, w = .result r → o = .ok r) ∧
      (∀ r, w = .nan r → o = if s.toy then .ok r else .error .failMinimizeNaN) ∧
      (w = .runtimeError → o = .error .runtimeError) ∧ ∀ e, w = .other e → o = .error e := by
  induction ws generalizing shared i with
  | nil => simp at hw
  | cons a ws ih =>
    cases i with
    | zero =>
      simp only [List.getElem?_cons_zero, Option.some.injEq] at hw
      subst hw
      refine ⟨_, rfl, ?_, ?_, ?_, ?_, ?_⟩
      · intro r
        rcases a with r' | r' | _ | e
        · intro h; left; simpa [minimizeWith] using h
        · intro h; right
          cases hto : s.toy <;> simp [minimizeWith, Strategy.used, Strategy.new, hs, hto] at h ⊢
          exact h
        · intro h
          cases hto : s.toy
          · simp [minimizeWith, Strategy.used, Strategy.new, hs, hto] at h
          · exact absurd rfl (ht hto)
        · intro h; simp [minimizeWith] at h
      · rintro r rfl; rfl
      · rintro r rfl
        cases hto : s.toy <;> simp [minimizeWith, Strategy.used, Strategy.new, hs, hto]
      · rintro rfl
        cases hto : s.toy
        · simp [minimizeWith, Strategy.used, Strategy.new, hs, hto]
        · exact absurd rfl (ht hto)
      · rintro e rfl; rfl
    | succ i =>
      simp only [List.getElem?_cons_succ] at hw
      obtain ⟨o, ho, h⟩ := ih (minimizeWith s empty shared a).1 i hw
      exact ⟨o, by simpa [minimizeAll] using ho, h⟩

/-- Three minimisations with `PushbackStrategy` and with `DefaultToyStrategy`. -/
example : minimizeAll ⟨true, false⟩ 0 none [.result 7, .nan 8, .result 9] = [.ok 7, .error .failMinimizeNaN, .ok 9] ∧
    minimizeAll ⟨true, true⟩ 0 none [.result 7, .nan 8, .result 9] = [.ok 7, .ok 8, .ok 9] := by decide +kernel

/-- **C254 is violated.** With `DefaultToyStrategy` a `RuntimeError` in the loss is swallowed and a result returned that has no parameters
and no loss: the one that the strategy is created with. -/
theorem empty_result_violated :
    ∃ (s : Strategy) (empty : ℕ) (w : Went ℕ), s.isClass = true ∧ minimizeAll s empty (s.new empty) [w] = [.ok empty] ∧
      ¬ Own w empty := by
  refine ⟨⟨true, true⟩, 0, .runtimeError, rfl, by decide +kernel, ?_⟩
  rintro (h | h) <;> cases h

/-- **C254 is violated.** With a strategy given as an instance a minimisation that fails with a `RuntimeError` returns the result of an
earlier one. -/
theorem stale_result_violated :
    ∃ (s : Strategy) (empty r : ℕ) (w : Went ℕ), minimizeAll s empty (s.new empty) [.nan r, w] = [.ok r, .ok r] ∧ ¬ Own w r ∧
      r ≠ empty := by
  refine ⟨⟨false, true⟩, 0, 5, .runtimeError, by decide +kernel, ?_, by decide⟩
  rintro (h | h) <;> cases h

/-! ## C255 -/

/-- **C255, partial.** For `n` parameters, given or those of the running minimisation, the limit is the number given, 3000 per parameter
if there is none, or the value of the function given.
Missing from the full claim: the property `maxiter` outside of a minimisation, see `maxiter_property_violated`. -/
theorem maxiter_partial (n : ℕ) (running arg : Option ℕ) (h : arg = some n ∨ arg = none ∧ running = some n) :
    (∀ k, getMaxiter (.number k) running arg = .ok k) ∧ getMaxiter .auto running arg = .ok (3000 * n) ∧
    (∀ f, getMaxiter (.func f) running arg = .ok (f n)) ∧
    ∀ m, maxiterProperty m (some n) = getMaxiter m none (some n) := by
  refine ⟨fun k => ?_, ?_, fun f => ?_, fun m => rfl⟩ <;> rcases h with rfl | ⟨rfl, rfl⟩ <;> rfl

/-- Two parameters. -/
example : getMaxiter .auto (some 2) none = .ok 6000 ∧ getMaxiter (.func fun n => n * n) none (some 2) = .ok 4 := by decide +kernel

/-- **C255 is violated.** The limit that was given as a number cannot be read from the minimiser outside of a minimisation. -/
theorem maxiter_property_violated (k : ℕ) : maxiterProperty (.number k) none = .error .valueError := rfl

/-! ## C256 -/

/-- What is done with classes if only `ScipyBaseMinimizer` is subclassed and no methods are added to it; the number of classes after. -/
inductive Plain : List Op → ℕ → Prop
  | nil : Plain [] 1
  | sub {ops n} : Plain ops n → Plain (ops ++ [.subclass 0]) (n + 1)
  | add {ops n} (c : ℕ) (ms : List String) : Plain ops n → 0 < c → c < n → Plain (ops ++ [.add c ms]) n

/-- What is true of the classes. -/
structure ClsInv (s : St) (ops : List Op) (n : ℕ) : Prop where
  len : s.classes.length = n
  base : s.classes[0]? = some ⟨[0], some none⟩
  cls : ∀ c, 0 < c → c < n →
    (s.classes[c]? = some ⟨[c, 0], none⟩ ∧ ∀ ms, Op.add c ms ∉ ops) ∨
    ∃ r l, s.classes[c]? = some ⟨[c, 0], some (some r)⟩ ∧ s.sets[r]? = some l ∧ (∃ ms, Op.add c ms ∈ ops) ∧
      ∀ g, g ∈ l ↔ ∃ ms, Op.add c ms ∈ ops ∧ g ∈ ms
  apart : ∀ (c c' r : ℕ) (m m' : List ℕ), s.classes[c]? = some ⟨m, some (some r)⟩ → s.classes[c']? = some ⟨m', some (some r)⟩ → c = c'
  fresh : ∀ (c : ℕ) (m : List ℕ) (r : ℕ), s.classes[c]? = some ⟨m, some (some r)⟩ → r < s.sets.length

theorem attr_base (s : St) (h : s.classes[0]? = some ⟨[0], some none⟩) : s.attr 0 = none := by
  simp [St.attr, h]

theorem attr_none (s : St) (c : ℕ) (h0 : s.classes[0]? = some ⟨[0], some none⟩) (h : s.classes[c]? = some ⟨[c, 0], none⟩) :
    s.attr c = none := by
  simp [St.attr, h, h0, List.findSome?_cons]

theorem attr_some (s : St) (c r : ℕ) (h : s.classes[c]? = some ⟨[c, 0], some (some r)⟩) : s.attr c = some r := by
  simp [St.attr, h, List.findSome?_cons]

theorem clsInv_run (ops : List Op) (n : ℕ) (h : Plain ops n) : ClsInv (start.run ops) ops n := by
  induction h with
  | nil =>
    refine ⟨rfl, rfl, fun c h1 h2 => by omega, ?_, ?_⟩
    · intro c c' r m m' h
      rcases c with _ | c <;> simp [St.run, start] at h
    · intro c m r h
      rcases c with _ | c <;> simp [St.run, start] at h
  | @sub ops n hp ih =>
    have hrun : start.run (ops ++ [.subclass 0]) =
        ⟨(start.run ops).classes ++ [⟨[n, 0], none⟩], (start.run ops).sets⟩ := by
      simp only [St.run, List.foldl_append, List.foldl_cons, List.foldl_nil]
      rw [show List.foldl St.step start ops = start.run ops from rfl]
      simp only [St.step, St.subclass, attr_base _ ih.base, ih.base, ih.len]
      rfl
    rw [hrun]
    have hn : 0 < n := by
      rcases Nat.eq_zero_or_pos n with h | h
      · have := ih.base
        have hl := ih.len
        rw [h] at hl
        rw [List.length_eq_zero_iff.1 hl] at this; cases this
      · exact h
    refine ⟨by simp [ih.len], ?_, ?_, ?_, ?_⟩
    · rw [List.getElem?_append_left (by rw [ih.len]; exact hn)]; exact ih.base
    · intro c h1 h2
      rcases Nat.lt_succ_iff_lt_or_eq.1 h2 with h2 | rfl
      · have hl : ((start.run ops).classes ++ [⟨[n, 0], none⟩])[c]? = (start.run ops).classes[c]? :=
          List.getElem?_append_left (by rw [ih.len]; exact h2)
        simp only [hl]
        rcases ih.cls c h1 h2 with ⟨ha, hb⟩ | ⟨r, l, ha, hb, ⟨ms, hm⟩, hd⟩
        · left; exact ⟨ha, fun ms hm => by simpa using (hb ms (by simpa using hm))⟩
        · right
          exact ⟨r, l, ha, hb, ⟨ms, by simp [hm]⟩, fun g => by simpa using hd g⟩
      · left
        refine ⟨by simp [← ih.len], fun ms hm => ?_⟩
        have hbound : ∀ (ops : List Op) (n : ℕ), Plain ops n → ∀ ms, Op.add n ms ∉ ops := by
          have : ∀ (ops : List Op) (n : ℕ), Plain ops n → ∀ c ms, Op.add c ms ∈ ops → c < n := by
            intro ops n h
            induction h with
            | nil => intro c ms h; simp at h
            | sub _ ih => intro c ms h; exact Nat.lt_succ_of_lt (ih c ms (by simpa using h))
            | add c' ms' _ _ hlt ih =>
              intro c ms h
              rcases List.mem_append.1 h with h | h
              · exact ih c ms h
              · simp at h; rw [h.1]; exact hlt
          intro ops n h ms hm
          exact absurd (this ops n h n ms hm) (by omega)
        exact hbound ops _ hp ms (by simpa using hm)
    · intro c c' r m m' h h'
      have hold : ∀ (c : ℕ) (m : List ℕ), ((start.run ops).classes ++ [⟨[n, 0], none⟩])[c]? = some ⟨m, some (some r)⟩ →
          (start.run ops).classes[c]? = some ⟨m, some (some r)⟩ := by
        intro c m hc
        rcases Nat.lt_or_ge c (start.run ops).classes.length with hlt | hge
        · rwa [List.getElem?_append_left hlt] at hc
        · rw [List.getElem?_append_right hge] at hc
          rcases hx : c - (start.run ops).classes.length with _ | k <;> rw [hx] at hc <;> simp at hc
      exact ih.apart c c' r m m' (hold c m h) (hold c' m' h')
    · intro c m r hc
      rcases Nat.lt_or_ge c (start.run ops).classes.length with hlt | hge
      · rw [List.getElem?_append_left hlt] at hc; exact ih.fresh c m r hc
      · rw [List.getElem?_append_right hge] at hc
        rcases hx : c - (start.run ops).classes.length with _ | k <;> rw [hx] at hc <;> simp at hc
  | @add ops n c ms hp h0 hlt ih =>
    have hstep : start.run (ops ++ [.add c ms]) = (start.run ops).add c ms := by
      simp only [St.run, List.foldl_append, List.foldl_cons, List.foldl_nil]; rfl
    rw [hstep]
    have hmem : ∀ c' ms', Op.add c' ms' ∈ ops ++ [Op.add c ms] ↔ Op.add c' ms' ∈ ops ∨ c' = c ∧ ms' = ms := by
      intro c' ms'; simp
    have hc0 : c ≠ 0 := by omega
    rcases ih.cls c h0 hlt with ⟨ha, hb⟩ | ⟨r, l, ha, hb, ⟨ms0, hm0⟩, hd⟩
    · have heq : (start.run ops).add c ms = ⟨(start.run ops).classes.modify c fun k =>
          { k with own := some (some (start.run ops).sets.length) }, (start.run ops).sets ++ [ms]⟩ := by
        simp only [St.add, attr_none _ c ih.base ha]
      rw [heq]
      have hcl : ∀ c', ((start.run ops).classes.modify c fun k => { k with own := some (some (start.run ops).sets.length) })[c']? =
          if c = c' then some ⟨[c, 0], some (some (start.run ops).sets.length)⟩ else (start.run ops).classes[c']? := by
        intro c'
        rw [List.getElem?_modify]
        by_cases hcc : c = c'
        · subst hcc; simp [ha]
        · simp [hcc]
      refine ⟨by simp [ih.len], ?_, ?_, ?_, ?_⟩
      · simp only [hcl, hc0, if_false]; exact ih.base
      · intro c' h1 h2
        simp only [hcl]
        by_cases hcc : c = c'
        · subst hcc
          right
          refine ⟨(start.run ops).sets.length, ms, by simp, by simp, ⟨ms, by simp⟩, fun g => ?_⟩
          constructor
          · intro hg; exact ⟨ms, by simp, hg⟩
          · rintro ⟨ms', hm', hg⟩
            rcases (hmem c ms').1 hm' with h | h
            · exact absurd h (hb ms')
            · rw [h.2] at hg; exact hg
        · rw [if_neg hcc]
          rcases ih.cls c' h1 h2 with ⟨ha', hb'⟩ | ⟨r, l, ha', hb', ⟨ms0, hm0⟩, hd'⟩
          · left
            refine ⟨ha', fun ms' hm' => ?_⟩
            rcases (hmem c' ms').1 hm' with h | h
            · exact hb' ms' h
            · exact hcc h.1.symm
          · right
            refine ⟨r, l, ha', ?_, ⟨ms0, (hmem _ _).2 (.inl hm0)⟩, fun g => ?_⟩
            · rw [List.getElem?_append_left (ih.fresh c' _ r ha')]; exact hb'
            · rw [hd' g]
              constructor
              · rintro ⟨ms', h, hg⟩; exact ⟨ms', (hmem _ _).2 (.inl h), hg⟩
              · rintro ⟨ms', h, hg⟩
                rcases (hmem _ _).1 h with h | h
                · exact ⟨ms', h, hg⟩
                · exact absurd h.1.symm hcc
      · intro c1 c2 r m m' h1 h2
        simp only [hcl] at h1 h2
        have hne : ∀ (c3 : ℕ) (m3 : List ℕ), (start.run ops).classes[c3]? ≠ some ⟨m3, some (some (start.run ops).sets.length)⟩ :=
          fun c3 m3 h3 => absurd (ih.fresh c3 m3 _ h3) (by omega)
        by_cases e1 : c = c1 <;> by_cases e2 : c = c2
        · exact e1.symm.trans e2
        · rw [if_pos e1] at h1
          rw [if_neg e2] at h2
          simp only [Option.some.injEq, Cls.mk.injEq] at h1
          rw [← h1.2] at h2
          exact absurd h2 (hne c2 m')
        · rw [if_neg e1] at h1
          rw [if_pos e2] at h2
          simp only [Option.some.injEq, Cls.mk.injEq] at h2
          rw [← h2.2] at h1
          exact absurd h1 (hne c1 m)
        · rw [if_neg e1] at h1
          rw [if_neg e2] at h2
          exact ih.apart c1 c2 r m m' h1 h2
      · intro c1 m r h1
        simp only [hcl] at h1
        by_cases e1 : c = c1
        · rw [if_pos e1] at h1
          simp only [Option.some.injEq, Cls.mk.injEq] at h1
          rw [← h1.2]; simp
        · rw [if_neg e1] at h1
          have := ih.fresh c1 m r h1
          simp; omega
    · have heq : (start.run ops).add c ms = ⟨(start.run ops).classes, (start.run ops).sets.modify r (· ++ ms)⟩ := by
        simp only [St.add, attr_some _ c r ha]
      rw [heq]
      refine ⟨ih.len, ih.base, ?_, ih.apart, ?_⟩
      · intro c' h1 h2
        by_cases hcc : c = c'
        · subst hcc
          right
          refine ⟨r, l ++ ms, ha, by simp [List.getElem?_modify, hb], ⟨ms, by simp⟩, fun g => ?_⟩
          rw [List.mem_append, hd g]
          constructor
          · rintro (⟨ms', h, hg⟩ | hg)
            · exact ⟨ms', (hmem _ _).2 (.inl h), hg⟩
            · exact ⟨ms, by simp, hg⟩
          · rintro ⟨ms', h, hg⟩
            rcases (hmem _ _).1 h with h | h
            · exact .inl ⟨ms', h, hg⟩
            · rw [h.2] at hg; exact .inr hg
        · rcases ih.cls c' h1 h2 with ⟨ha', hb'⟩ | ⟨r', l', ha', hb', ⟨ms0, hm0⟩, hd'⟩
          · left
            refine ⟨ha', fun ms' hm' => ?_⟩
            rcases (hmem c' ms').1 hm' with h | h
            · exact hb' ms' h
            · exact hcc h.1.symm
          · right
            have hrr : r ≠ r' := by
              rintro rfl
              exact hcc (ih.apart c c' r _ _ ha ha')
            refine ⟨r', l', ha', by simp [List.getElem?_modify, hrr, hb'], ⟨ms0, (hmem _ _).2 (.inl hm0)⟩, fun g => ?_⟩
            rw [hd' g]
            constructor
            · rintro ⟨ms', h, hg⟩; exact ⟨ms', (hmem _ _).2 (.inl h), hg⟩
            · rintro ⟨ms', h, hg⟩
              rcases (hmem _ _).1 h with h | h
              · exact ⟨ms', h, hg⟩
              · exact absurd h.1.symm hcc
      · intro c1 m r1 h1
        have := ih.fresh c1 m r1 h1
        simpa using this

/-- **C256, partial.** If only `ScipyBaseMinimizer` itself is subclassed, as zfit does, and methods are added to the subclasses in any
order, then a subclass can always be defined, and it accepts exactly the methods that were added to it, or everything if none were.
Missing from the full claim: subclasses of such a minimiser (`subclass_violated`, `shared_violated`). -/
theorem derivatives_partial (ops : List Op) (n : ℕ) (h : Plain ops n) :
    (∃ s', (start.run ops).subclass 0 = .ok s') ∧
    ∀ c, 0 < c → c < n → ∀ g, (start.run ops).accepts c g = true ↔
      (∀ ms, Op.add c ms ∉ ops) ∨ ∃ ms, Op.add c ms ∈ ops ∧ g ∈ ms := by
  have hi := clsInv_run ops n h
  refine ⟨by simp [St.subclass, attr_base _ hi.base], fun c h0 hn g => ?_⟩
  rcases hi.cls c h0 hn with ⟨ha, hb⟩ | ⟨r, l, ha, hb, ⟨ms, hm⟩, hd⟩
  · simp only [St.accepts, attr_none _ c hi.base ha]
    simp [hb]
  · simp only [St.accepts, attr_some _ c r ha, hb, Option.getD_some, decide_eq_true_eq]
    rw [hd g]
    constructor
    · exact .inr
    · rintro (h | h)
      · exact absurd hm (h ms)
      · exact h

/-- Two minimisers, one with methods. -/
example : Plain [.subclass 0, .add 1 ["zfit", "2-point"], .subclass 0, .add 1 ["3-point"]] 3 ∧
    (start.run [.subclass 0, .add 1 ["zfit", "2-point"], .subclass 0, .add 1 ["3-point"]]).accepts 1 "3-point" = true ∧
    (start.run [.subclass 0, .add 1 ["zfit", "2-point"], .subclass 0, .add 1 ["3-point"]]).accepts 1 "cs" = false ∧
    (start.run [.subclass 0, .add 1 ["zfit", "2-point"], .subclass 0, .add 1 ["3-point"]]).accepts 2 "cs" = true := by
  refine ⟨?_, by decide +kernel⟩
  exact .add (ops := [.subclass 0, .add 1 ["zfit", "2-point"], .subclass 0]) 1 _
    (.sub (ops := [.subclass 0, .add 1 ["zfit", "2-point"]]) (.add (ops := [.subclass 0]) 1 _ (.sub .nil) (by decide) (by decide)))
    (by decide) (by decide)

/-- **C256 is violated.** A minimiser that has a list of methods, such as `ScipyBFGS`, cannot be subclassed: the definition fails with an
`AttributeError`, because the base class has no list. -/
theorem subclass_violated (ops : List Op) (n : ℕ) (h : Plain ops n) (c : ℕ) (h0 : 0 < c) (hn : c < n) (ms : List String)
    (hm : Op.add c ms ∈ ops) : (start.run ops).subclass c = .error .attributeError := by
  have hi := clsInv_run ops n h
  rcases hi.cls c h0 hn with ⟨-, hb⟩ | ⟨r, l, ha, -, -, -⟩
  · exact absurd hm (hb ms)
  · simp [St.subclass, attr_some _ c r ha, attr_base _ hi.base]

/-- **C256 is violated.** Methods added to a subclass are accepted by its parent, if the parent got its list after the subclass was
defined. -/
theorem shared_violated :
    ∃ ops : List Op, ∃ g, (∀ ms, Op.add 1 ms ∈ ops → g ∉ ms) ∧ (∃ ms, Op.add 1 ms ∈ ops) ∧ (start.run ops).accepts 1 g = true := by
  refine ⟨[.subclass 0, .subclass 1, .add 1 ["zfit"], .add 2 ["cs"]], "cs", ?_, ⟨["zfit"], by simp⟩, by decide +kernel⟩
  intro ms hm
  have : ms = ["zfit"] := by simpa using hm
  subst this
  decide

end Zfit.Sup
