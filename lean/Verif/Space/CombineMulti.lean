import Verif.Space.CombineProps

/-!
# Model of /repo/zfit/core/space.py: `combine_spaces` of unions (`MultiSpace`), and property C213

A `MultiSpace` is here the list of its pieces; the pieces of the result are what `MultiSpace(spaces=all_combinations)` is
built from (the union itself is C06).
-/

namespace Zfit.Sp

open Zfit Zfit.Coord

/-- `itertools.product(*spaces)` (space.py:2378): the last space varies fastest. -/
def cart {α : Type} : List (List α) → List (List α)
  | [] => [[]]
  | l :: ls => l.flatMap (fun a => (cart ls).map (fun c => a :: c))

/-- The loop over the combinations (space.py:2380-2386): combinations that do not agree are left out, unless nothing has
been found so far. -/
def combineLoop : List (List Space) → List Space → Except Err (List Space)
  | [], acc => .ok acc
  | c :: cs, acc =>
    match combineSpaces c with
    | .ok s => combineLoop cs (acc ++ [s])
    | .error .limitsIncompatible => if acc.isEmpty then .error .limitsIncompatible else combineLoop cs acc
    | .error e => .error e

/-- `combine_spaces` of unions with limits (space.py:2303-2394): the pieces of the result.  With one piece in every union
the code takes the path of C07, which the loop takes as well. -/
def combinePieces (spaces : List (List Space)) : Except Err (List Space) := combineLoop (cart spaces) []

theorem mem_cart {α : Type} (ls : List (List α)) (c : List α) :
    c ∈ cart ls ↔ List.Forall₂ (fun a l => a ∈ l) c ls := by
  induction ls generalizing c with
  | nil => simp [cart]
  | cons l ls ih =>
    simp only [cart, List.mem_flatMap, List.mem_map]
    constructor
    · rintro ⟨a, ha, d, hd, rfl⟩
      exact .cons ha ((ih d).1 hd)
    · intro h
      cases h with
      | cons ha hd => exact ⟨_, ha, _, (ih _).2 hd, rfl⟩

theorem length_cart {α : Type} (ls : List (List α)) : (cart ls).length = (ls.map List.length).prod := by
  induction ls with
  | nil => rfl
  | cons l ls ih =>
    simp only [cart, List.length_flatMap, List.length_map, ih, List.map_cons, List.prod_cons]
    rw [List.map_const', List.sum_replicate]
    simp

theorem combineLoop_all (cs : List (List Space)) (acc : List Space) (f : List Space → Space)
    (h : ∀ c ∈ cs, combineSpaces c = .ok (f c)) : combineLoop cs acc = .ok (acc ++ cs.map f) := by
  induction cs generalizing acc with
  | nil => simp [combineLoop]
  | cons c cs ih =>
    have hd : combineLoop (c :: cs) acc = match combineSpaces c with
      | .ok s => combineLoop cs (acc ++ [s])
      | .error .limitsIncompatible => if acc.isEmpty then .error .limitsIncompatible else combineLoop cs acc
      | .error e => .error e := rfl
    rw [hd, h c (by simp)]
    dsimp only
    rw [ih _ (fun d hd => h d (by simp [hd]))]
    simp

/-- The spaces of two unions have no observable in common. -/
def Apart (A B : List Space) : Prop := ∀ s ∈ A, ∀ t ∈ B, ∀ x, x ∈ obsOf s → x ∉ obsOf t

/-- A point (by name) lies within the limits of a space. -/
def Within (s : Space) (p : String → Rat) : Prop :=
  ∀ x ∈ obsOf s, (limOf s x).1 ≤ p x ∧ p x ≤ (limOf s x).2

theorem cart_apart {spaces : List (List Space)} (h : spaces.Pairwise Apart) {c : List Space} (hc : c ∈ cart spaces) :
    c.Pairwise (fun s t => ∀ x, x ∈ obsOf s → x ∉ obsOf t) := by
  rw [mem_cart] at hc
  induction hc with
  | nil => exact .nil
  | cons ha hd ih =>
    rename_i a l c ls
    rw [List.pairwise_cons] at h ⊢
    refine ⟨?_, ih h.2⟩
    intro t ht
    obtain ⟨B, hB, htB⟩ : ∃ B ∈ ls, t ∈ B := by
      clear ih h
      induction hd with
      | nil => simp at ht
      | cons hb _ ih' =>
        rcases List.mem_cons.1 ht with rfl | ht
        · exact ⟨_, List.mem_cons_self, hb⟩
        · obtain ⟨B, hB, h⟩ := ih' ht
          exact ⟨B, List.mem_cons_of_mem _ hB, h⟩
    exact h.1 B hB a ha t htB

theorem cart_mem {spaces : List (List Space)} {c : List Space} (hc : c ∈ cart spaces) :
    (∀ s ∈ c, ∃ A ∈ spaces, s ∈ A) ∧ (∀ A ∈ spaces, ∃ s ∈ c, s ∈ A) ∧ (spaces ≠ [] → c ≠ []) := by
  rw [mem_cart] at hc
  induction hc with
  | nil => simp
  | cons ha hd ih =>
    refine ⟨?_, ?_, fun _ => by simp⟩
    · intro s hs
      rcases List.mem_cons.1 hs with rfl | hs
      · exact ⟨_, List.mem_cons_self, ha⟩
      · obtain ⟨A, hA, h⟩ := ih.1 s hs
        exact ⟨A, List.mem_cons_of_mem _ hA, h⟩
    · intro A hA
      rcases List.mem_cons.1 hA with rfl | hA
      · exact ⟨_, List.mem_cons_self, ha⟩
      · obtain ⟨s, hs, h⟩ := ih.2.1 A hA
        exact ⟨s, List.mem_cons_of_mem _ hs, h⟩

theorem occurrences_apart {c : List Space} (h : c.Pairwise (fun s t => ∀ x, x ∈ obsOf s → x ∉ obsOf t)) (x : String) :
    occurrences c x ≤ 2 := by
  have key : occurrences c x ≤ 1 := by
    unfold occurrences
    induction c with
    | nil => simp
    | cons s c ih =>
      rw [List.pairwise_cons] at h
      by_cases hs : x ∈ obsOf s
      · have : c.filter (fun s => decide (x ∈ obsOf s)) = [] := by
          rw [List.filter_eq_nil_iff]
          intro t ht
          simpa using h.1 t ht x hs
        simp [hs, this]
      · simpa [List.filter_cons, hs] using ih h.2
  omega

theorem agree_apart {c : List Space} (h : c.Pairwise (fun s t => ∀ x, x ∈ obsOf s → x ∉ obsOf t)) (x : String) :
    AgreeOn c x ∧ ∀ s ∈ c, ∀ t ∈ c, x ∈ obsOf s → x ∈ obsOf t → limOf s x = limOf t x := by
  have key : ∀ ⦃s⦄, s ∈ c → ∀ ⦃t⦄, t ∈ c → (x ∈ obsOf s → x ∈ obsOf t → limOf s x = limOf t x) := by
    induction c with
    | nil => simp
    | cons a c ih =>
      rw [List.pairwise_cons] at h
      intro s hs t ht hxs hxt
      rcases List.mem_cons.1 hs with rfl | hs1 <;> rcases List.mem_cons.1 ht with rfl | ht1
      · rfl
      · exact absurd hxt (h.1 t ht1 x hxs)
      · exact absurd hxs (h.1 s hs1 x hxt)
      · exact ih h.2 hs1 ht1 hxs hxt
  refine ⟨?_, fun s hs t ht => key hs ht⟩
  intro s hs t ht hxs hxt
  rw [key hs ht hxs hxt]
  exact closeLim_refl _

/-- C213, the part that holds.  Unions of spaces without a common observable can always be combined; the result has one
piece per combination of pieces, and a point lies within one of them exactly if it lies within one of the pieces of every
union.
Missing from the full claim: unions that share observables, see `pieces_order_violated` and
`pieces_dropped_violated`. -/
theorem combine_unions_partial (spaces : List (List Space)) (hne : spaces ≠ [])
    (hc : ∀ A ∈ spaces, ∀ s ∈ A, Created s) (hap : spaces.Pairwise Apart) :
    ∃ rs, combinePieces spaces = .ok rs ∧ rs.length = (spaces.map List.length).prod ∧
      ∀ p : String → Rat, (∃ r ∈ rs, Within r p) ↔ ∀ A ∈ spaces, ∃ s ∈ A, Within s p := by
  have hone : ∀ c ∈ cart spaces, ∃ r, combineSpaces c = .ok r := by
    intro c hcc
    have hp := cart_apart hap hcc
    obtain ⟨h1, -, h3⟩ := cart_mem hcc
    refine (combine_decision_partial c (h3 hne) ?_ (occurrences_apart hp)).1 (fun x => (agree_apart hp x).1)
    intro s hs
    obtain ⟨A, hA, hsA⟩ := h1 s hs
    exact hc A hA s hsA
  have hw : ∀ c ∈ cart spaces, ∀ r, combineSpaces c = .ok r → ∀ p, Within r p ↔ ∀ s ∈ c, Within s p := by
    intro c hcc r hr p
    have hp := cart_apart hap hcc
    obtain ⟨h1, -, h3⟩ := cart_mem hcc
    obtain ⟨-, e2, e3, e4⟩ := combine_limits c (h3 hne) (fun s hs => by
      obtain ⟨A, hA, hsA⟩ := h1 s hs
      exact hc A hA s hsA) r hr
    have e4' := e4 (fun s hs t ht x => (agree_apart hp x).2 s hs t ht)
    constructor
    · intro hwr s hs x hx
      rw [← e4' s hs x hx]
      exact hwr x ((e2 x).2 ⟨s, hs, hx⟩)
    · intro hall x hx
      obtain ⟨s, hs, hxs⟩ := (e2 x).1 hx
      rw [e4' s hs x hxs]
      exact hall s hs x hxs
  classical
  let f : List Space → Space := fun c => if h : ∃ r, combineSpaces c = .ok r then h.choose else ⟨⟨none, none⟩, none, none⟩
  have hf : ∀ c ∈ cart spaces, combineSpaces c = .ok (f c) := by
    intro c hcc
    have := hone c hcc
    simp only [f, this, dif_pos]
    exact this.choose_spec
  refine ⟨(cart spaces).map f, ?_, ?_, ?_⟩
  · unfold combinePieces
    rw [combineLoop_all _ _ f hf]
    simp
  · rw [List.length_map, length_cart]
  · intro p
    constructor
    · rintro ⟨r, hr, hrp⟩ A hA
      obtain ⟨c, hcc, rfl⟩ := List.mem_map.1 hr
      obtain ⟨s, hs, hsA⟩ := (cart_mem hcc).2.1 A hA
      exact ⟨s, hsA, (hw c hcc _ (hf c hcc) p).1 hrp s hs⟩
    · intro hall
      obtain ⟨c, hcc, hcp⟩ : ∃ c ∈ cart spaces, ∀ s ∈ c, Within s p := by
        clear hone hw hf hne hc hap f
        induction spaces with
        | nil => exact ⟨[], by simp [cart], by simp⟩
        | cons A spaces ih =>
          obtain ⟨s, hs, hsp⟩ := hall A (by simp)
          obtain ⟨c, hcc, hcp⟩ := ih (fun B hB => hall B (by simp [hB]))
          refine ⟨s :: c, ?_, ?_⟩
          · simp only [cart, List.mem_flatMap, List.mem_map]
            exact ⟨s, hs, c, hcc, rfl⟩
          · intro t ht
            rcases List.mem_cons.1 ht with rfl | ht
            · exact hsp
            · exact hcp t ht
      exact ⟨f c, List.mem_map.2 ⟨c, hcc, rfl⟩, (hw c hcc _ (hf c hcc) p).2 hcp⟩

/-- One interval, as used in the examples. -/
def iv (o : String) (lo hi : Rat) : Space := ⟨⟨some [o], none⟩, some [(o, .rect lo hi)], none⟩

theorem iv_created (o : String) (lo hi : Rat) (h : lo < hi) : Created (iv o lo hi) := by
  refine ⟨[o], none, [lo], [hi], [], iv o lo hi, by simp, by simp, ?_, by simp, trivial, rfl⟩
  simp [Space.make, Coords.make, falsy, Coords.nObs, limitPieces, h, buildDict, dictSet, normaliseDict, pickOrDerive, iv,
    except_bind_ok, except_pure]

/-- The hypotheses are met: two intervals in `x` and two in `y` give four rectangles. -/
example : [[iv "x" 0 1, iv "x" 2 3], [iv "y" 0 1, iv "y" 4 5]].Pairwise Apart ∧
    (∀ A ∈ [[iv "x" 0 1, iv "x" 2 3], [iv "y" 0 1, iv "y" 4 5]], ∀ s ∈ A, Created s) ∧
    ∃ rs, combinePieces [[iv "x" 0 1, iv "x" 2 3], [iv "y" 0 1, iv "y" 4 5]] = .ok rs ∧
      rs.map (fun r => (limOf r "x", limOf r "y")) =
        [((0, 1), (0, 1)), ((0, 1), (4, 5)), ((2, 3), (0, 1)), ((2, 3), (4, 5))] := by
  refine ⟨by simp [Apart, iv, obsOf], ?_, _, rfl, by decide +kernel⟩
  intro A hA s hs
  simp at hA
  rcases hA with rfl | rfl <;> simp at hs <;> rcases hs with rfl | rfl <;>
    exact iv_created _ _ _ (by decide +kernel)

/-- C213 fails for unions that share an observable: whether they can be combined depends on the order of the pieces.  A
union of two intervals can be combined with itself, but not with the same union in the other order. -/
theorem pieces_order_violated :
    combinePieces [[iv "x" 0 1, iv "x" 2 3], [iv "x" 0 1, iv "x" 2 3]] = .ok [iv "x" 0 1, iv "x" 2 3] ∧
    combinePieces [[iv "x" 0 1, iv "x" 2 3], [iv "x" 2 3, iv "x" 0 1]] = .error .limitsIncompatible := by
  constructor <;> decide +kernel

/-- C213 fails for unions that share an observable: pieces without a partner are left out without an error.  Two single
intervals that differ are refused. -/
theorem pieces_dropped_violated :
    combinePieces [[iv "x" 0 1, iv "x" 2 3], [iv "x" 0 1]] = .ok [iv "x" 0 1] ∧
    combinePieces [[iv "x" 2 3], [iv "x" 0 1]] = .error .limitsIncompatible := by
  constructor <;> decide +kernel

end Zfit.Sp
