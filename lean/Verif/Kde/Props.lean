import Verif.Kde.Model
import Mathlib.Data.List.Basic
import Mathlib.Tactic.Linarith
import Mathlib.Tactic.Ring
import Mathlib.Tactic.FieldSimp
import Mathlib.Algebra.Order.BigOperators.Group.List
import Mathlib.Algebra.Order.Ring.Rat
import Mathlib.Data.Rat.Floor
import Mathlib.Algebra.BigOperators.Ring.List

/-! Properties of the padding of kernel density estimates (C82). -/

namespace Zfit.Kde

open Zfit

section padding

variable {K V A : Type} [Field K] [LinearOrder K]

/-- Specification: the events closer than the fraction `fl` of the range to its lower end are mirrored at it, those closer than
`fu` to the upper end at that; each keeps what belongs to it. -/
def reflected (lo hi : K) (fl fu : Option K) (events : List (K × A)) : List (K × A) :=
  ((events.filter fun e => match fl with | some f => decide (e.1 < lo + (hi - lo) * f) | none => false).map fun e => (2 * lo - e.1, e.2)) ++
  events ++
  ((events.filter fun e => match fu with | some f => decide (e.1 > hi - (hi - lo) * f) | none => false).map fun e => (2 * hi - e.1, e.2))

theorem whereIdx_cons (p : K → Bool) (a : K) (l : List K) :
    whereIdx p (a :: l) = (if p a then [0] else []) ++ (whereIdx p l).map Nat.succ := by
  unfold whereIdx
  rw [List.length_cons, List.range_succ_eq_map, List.filter_cons]
  have h : (List.map Nat.succ (List.range l.length)).filter (fun i => ((a :: l)[i]?.map p).getD false) =
      ((List.range l.length).filter fun i => (l[i]?.map p).getD false).map Nat.succ := by
    rw [List.filter_map]
    rfl
  rw [h]
  cases hp : p a <;> simp [hp]

theorem gather_where (p : K → Bool) (g : K × A → V) (events : List (K × A)) :
    gather (events.map g) (whereIdx p (events.map (·.1))) = .ok ((events.filter fun e => p e.1).map g) := by
  have hshift : ∀ (v : V) (l : List V) (idx : List ℕ), gather (v :: l) (idx.map Nat.succ) = gather l idx := by
    intro v l idx
    induction idx with
    | nil => rfl
    | cons i idx ih =>
      unfold gather at ih ⊢
      simp only [List.map_cons, List.mapM_cons, Nat.succ_eq_add_one, List.getElem?_cons_succ] at ih ⊢
      rw [ih]
  induction events with
  | nil => rfl
  | cons e events ih =>
    simp only [List.map_cons]
    rw [whereIdx_cons]
    have hs := hshift (g e) (events.map g) (whereIdx p (events.map (·.1)))
    rw [ih] at hs
    cases hp : p e.1
    · simp only [Bool.false_eq_true, if_false, List.nil_append, hs, List.filter_cons, hp]
    · simp only [if_true, List.singleton_append, List.filter_cons, hp, List.map_cons]
      unfold gather at hs ⊢
      rw [List.mapM_cons, hs]
      rfl

theorem gatherOpt_where (p : K → Bool) (g : Option (A → V)) (events : List (K × A)) :
    gatherOpt (g.map fun g => events.map fun e => g e.2) (whereIdx p (events.map (·.1))) =
      .ok (g.map fun g => (events.filter fun e => p e.1).map fun e => g e.2) := by
  cases g with
  | none => rfl
  | some g =>
    have := gather_where p (fun e : K × A => g e.2) events
    simp only [gatherOpt, Option.map_some, this, Except.map]

theorem gather_nil (l : List V) : gather l [] = .ok [] := rfl

theorem catOpt_map (g : Option (A → V)) (a b c : List (K × A)) :
    catOpt (g.map fun g => a.map fun e => g e.2) (g.map fun g => b.map fun e => g e.2) (g.map fun g => c.map fun e => g e.2) =
      g.map fun g => (a ++ b ++ c).map fun e => g e.2 := by
  cases g <;> simp [catOpt]

/-- C82. Padding appends the mirrored events, each with its own weight and bandwidth, and keeps all others as they are. -/
theorem pad_refines (lo hi : K) (fl fu : Option K) (events : List (K × A)) (fw fb : Option (A → V)) :
    padAt lo hi fl fu (events.map (·.1)) (fw.map fun w => events.map fun e => w e.2) (fb.map fun b => events.map fun e => b e.2) =
    .ok ((reflected lo hi fl fu events).map (·.1), fw.map fun w => (reflected lo hi fl fu events).map fun e => w e.2,
      fb.map fun b => (reflected lo hi fl fu events).map fun e => b e.2) := by
  have gN : ∀ g : Option (A → V), gatherOpt (g.map fun g => events.map fun e => g e.2) [] =
      .ok (g.map fun g => ([] : List (K × A)).map fun e => g e.2) := by intro g; cases g <;> rfl
  have m1 : ∀ (m : K) (l : List (K × A)), (l.map (·.1)).map (fun x => -x + 2 * m) = (l.map fun e => (2 * m - e.1, e.2)).map (·.1) := by
    intro m l
    rw [List.map_map, List.map_map]
    apply List.map_congr_left
    intro e _
    simp only [Function.comp]
    ring
  have m2 : ∀ (g : A → V) (m : K) (l : List (K × A)), (l.map fun e => (2 * m - e.1, e.2)).map (fun e => g e.2) = l.map fun e => g e.2 := by
    intro g m l
    rw [List.map_map]
    rfl
  unfold padAt
  rcases fl with _ | fl <;> rcases fu with _ | fu <;>
    simp only [mirrorIdx, gather_nil, gN, gather_where, gatherOpt_where, bind, Except.bind, catOpt_map] <;>
    simp only [reflected, m1, List.map_append, m2, List.filter_false, List.map_nil, List.nil_append, List.append_nil]

/-- C82. What `padding=True`, a number or a dictionary mean, and that other keys are rejected. -/
theorem pad_modes (lo hi f : K) (d : List (String × K)) (events : List (K × A)) (fw fb : Option (A → V)) :
    let pad := fun mode => padreflect mode (some (lo, hi)) (events.map (·.1)) (fw.map fun w => events.map fun e => w e.2)
      (fb.map fun b => events.map fun e => b e.2)
    let out := fun r : List (K × A) => (.ok (r.map (·.1), fw.map (fun w => r.map fun e => w e.2), fb.map (fun b => r.map fun e => b e.2)) :
      Except Err (List K × Option (List V) × Option (List V)))
    pad .off = out events ∧
    pad .on = out (reflected lo hi (some (1 / 10)) (some (1 / 10)) events) ∧
    pad (.number f) = out (reflected lo hi (some f) (some f) events) ∧
    ((∀ k ∈ d.map (·.1), k = "lowermirror" ∨ k = "uppermirror") →
      pad (.dict d) = out (reflected lo hi (dictGet d "lowermirror") (dictGet d "uppermirror") events)) ∧
    ((∃ k ∈ d.map (·.1), k ≠ "lowermirror" ∧ k ≠ "uppermirror") → pad (.dict d) = .error .valueError) := by
  intro pad out
  refine ⟨rfl, pad_refines lo hi _ _ events fw fb, pad_refines lo hi _ _ events fw fb, fun h => ?_, fun h => ?_⟩
  · have hall : (d.all fun kv => kv.1 = "lowermirror" || kv.1 = "uppermirror") = true := by
      rw [List.all_eq_true]
      intro kv hkv
      have := h kv.1 (List.mem_map_of_mem hkv)
      simpa using this
    simp only [pad, padreflect, fractions, hall, if_true]
    exact pad_refines lo hi _ _ events fw fb
  · have hall : ¬ (d.all fun kv => kv.1 = "lowermirror" || kv.1 = "uppermirror") = true := by
      rw [List.all_eq_true]
      intro hc
      obtain ⟨k, hk, h1, h2⟩ := h
      obtain ⟨kv, hkv, rfl⟩ := List.mem_map.1 hk
      have := hc kv hkv
      simp [h1, h2] at this
    simp only [pad, padreflect, fractions, if_neg hall]
    rfl

variable [IsStrictOrderedRing K]

/-- C82. If all events lie within the limits, padding adds nothing strictly between them. Missing from the full claim: the cases of
`pad_outside_violated`, `pad_border_doubled_violated`. -/
theorem pad_inside_unchanged_partial (lo hi : K) (fl fu : Option K) (events : List (K × A)) (h : ∀ e ∈ events, lo ≤ e.1 ∧ e.1 ≤ hi) :
    (reflected lo hi fl fu events).filter (fun e => decide (lo < e.1 ∧ e.1 < hi)) = events.filter fun e => decide (lo < e.1 ∧ e.1 < hi) := by
  unfold reflected
  rw [List.filter_append, List.filter_append]
  have h1 : ∀ (p : K × A → Bool), ((events.filter p).map fun e => (2 * lo - e.1, e.2)).filter (fun e => decide (lo < e.1 ∧ e.1 < hi)) = [] := by
    intro p
    rw [List.filter_eq_nil_iff]
    intro e he
    obtain ⟨e', he', rfl⟩ := List.mem_map.1 he
    have := h e' (List.mem_filter.1 he').1
    simp only [decide_eq_true_eq, not_and]
    intro hlt
    linarith [this.1]
  have h2 : ∀ (p : K × A → Bool), ((events.filter p).map fun e => (2 * hi - e.1, e.2)).filter (fun e => decide (lo < e.1 ∧ e.1 < hi)) = [] := by
    intro p
    rw [List.filter_eq_nil_iff]
    intro e he
    obtain ⟨e', he', rfl⟩ := List.mem_map.1 he
    have := h e' (List.mem_filter.1 he').1
    simp only [decide_eq_true_eq, not_and]
    intro _ hlt
    linarith [this.2]
  rw [h1, h2, List.nil_append, List.append_nil]

theorem filter_map_eq (events : List (K × A)) (p : K × A → Bool) (m a b : K) (hab : ∀ x, 2 * m - x = a ↔ x = b)
    (hp : ∀ e ∈ events, e.1 = b → p e = true) :
    (((events.filter p).map fun e => (2 * m - e.1, e.2)).filter fun e => decide (e.1 = a)).map (·.2) =
      (events.filter fun e => decide (e.1 = b)).map (·.2) := by
  rw [List.filter_map, List.map_map, List.filter_filter]
  have : (events.filter fun e => ((fun e : K × A => decide (e.1 = a)) ∘ fun e => (2 * m - e.1, e.2)) e && p e) =
      events.filter fun e => decide (e.1 = b) := by
    apply List.filter_congr
    intro e he
    simp only [Function.comp]
    by_cases hb : e.1 = b
    · rw [hp e he hb]; simp [hab, hb]
    · simp [hab, hb]
  rw [this]
  rfl

/-- C82. If all events lie within the limits, the padded sample is symmetric around the lower limit up to the distance that is
mirrored: below it there are the same events, with their weights and bandwidths, as above it. The same at the upper limit. -/
theorem pad_symmetric (lo hi f t : K) (hlh : lo ≤ hi) (hf : f ≤ 1) (ht : 0 < t) (htf : t < (hi - lo) * f) (g : Option K) (events : List (K × A))
    (h : ∀ e ∈ events, lo ≤ e.1 ∧ e.1 ≤ hi) :
    ((reflected lo hi (some f) g events).filter fun e => decide (e.1 = lo - t)).map (·.2) =
      ((reflected lo hi (some f) g events).filter fun e => decide (e.1 = lo + t)).map (·.2) ∧
    ((reflected lo hi g (some f) events).filter fun e => decide (e.1 = hi + t)).map (·.2) =
      ((reflected lo hi g (some f) events).filter fun e => decide (e.1 = hi - t)).map (·.2) := by
  have hlt : t < hi - lo := lt_of_lt_of_le htf (by nlinarith)
  have none1 : ∀ (q : K × A → Bool) (m a : K), (∀ e ∈ events, 2 * m - e.1 ≠ a) →
      ((events.filter q).map fun e => (2 * m - e.1, e.2)).filter (fun e => decide (e.1 = a)) = [] := by
    intro q m a hq
    rw [List.filter_eq_nil_iff]
    intro e he
    obtain ⟨e', he', rfl⟩ := List.mem_map.1 he
    simpa using hq e' (List.mem_filter.1 he').1
  have none2 : ∀ a : K, (∀ e ∈ events, e.1 ≠ a) → events.filter (fun e => decide (e.1 = a)) = [] := by
    intro a ha
    rw [List.filter_eq_nil_iff]
    intro e he
    simpa using ha e he
  unfold reflected
  simp only [List.filter_append, List.map_append]
  constructor
  · rw [none2 (lo - t) (fun e he hc => by have := h e he; linarith [this.1]),
      none1 _ hi (lo - t) (fun e he hc => by have := h e he; linarith [this.2]),
      none1 _ lo (lo + t) (fun e he hc => by have := h e he; linarith [this.1]),
      none1 _ hi (lo + t) (fun e he hc => by have := h e he; linarith [this.2]),
      filter_map_eq events _ lo (lo - t) (lo + t) (fun x => ⟨fun hx => by linarith, fun hx => by linarith⟩)
        (fun e he hb => by simp only [decide_eq_true_eq]; linarith)]
    simp
  · rw [none2 (hi + t) (fun e he hc => by have := h e he; linarith [this.2]),
      none1 _ lo (hi + t) (fun e he hc => by have := h e he; linarith [this.1]),
      none1 _ hi (hi - t) (fun e he hc => by have := h e he; linarith [this.2]),
      none1 _ lo (hi - t) (fun e he hc => by have := h e he; linarith [this.1]),
      filter_map_eq events _ hi (hi + t) (hi - t) (fun x => ⟨fun hx => by linarith, fun hx => by linarith⟩)
        (fun e he hb => by simp only [gt_iff_lt, decide_eq_true_eq]; linarith)]
    simp

/-- C82. Weights given with the data and separately are rejected. -/
theorem weights_twice (w w' : List V) : pickWeights (some w) (some w') = .error .overdefined ∧
    pickWeights (some w) none = .ok (some w) ∧ pickWeights none (some w) = .ok (some w) := ⟨rfl, rfl, rfl⟩

end padding

/-- The example of the documentation, with weights: the range 0 to 5, the fraction 0.3. -/
example : padreflect (.number (3 / 10)) (some (0, 5)) [1, 2, 4] (some [10, 20, 40]) (none : Option (List ℚ)) =
    .ok ([-1, 1, 2, 4, (6 : ℚ)], some [10, 10, 20, 40, 40], none) := by decide +kernel

/-- The hypotheses of `pad_symmetric` and `pad_inside_unchanged_partial` are met by it. -/
example : (∀ e ∈ [((1 : ℚ), 10), (2, 20), (4, 40)], (0 : ℚ) ≤ e.1 ∧ e.1 ≤ 5) ∧ (0 : ℚ) < 1 ∧ (1 : ℚ) < (5 - 0) * (3 / 10) := by
  decide +kernel

/-- C82 refuted for data beyond the limits ("using a larger dataset is actually good practice"): an event below the lower limit is
mirrored into the range. -/
theorem pad_outside_violated :
    padreflect (.number (1 / 10)) (some (0, 10)) [-2, 5] (none : Option (List ℚ)) none = .ok ([2, -2, (5 : ℚ)], none, none) := by
  decide +kernel

/-- C82 refuted for events on a limit: they are counted twice. -/
theorem pad_border_doubled_violated :
    padreflect (.number (1 / 10)) (some (0, 10)) [0, 5] (none : Option (List ℚ)) none = .ok ([0, 0, (5 : ℚ)], none, none) := by
  decide +kernel

end Zfit.Kde
