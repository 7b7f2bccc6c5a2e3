import Verif.Convert.Lemmas
import Mathlib.Tactic.NormNum

/-! # Theorems about binning and unbinning PDFs: C105 - C110 -/

namespace Zfit.Convert

open Zfit Zfit.Bin Zfit.BinPdf

/-! ## Specification -/

/-- The part of the PDF in a box, normalised over `norm` (`none`: not normalised). -/
def part (u : UPdf) (norm : Option Box) (b : Box) : Rat :=
  match norm with
  | none => u.integral b
  | some n => u.integral b / u.integral n

/-- A method of an unbinned PDF comes to an end with the result. -/
def Ends {α : Type} (f : Nat → M α) (v : Except Err α) : Prop := ∃ n, ∀ m, n ≤ m → f m = some v

/-- The volume that a bin and a box have in common. -/
def overlap (edges : List (List Rat)) (limits : Box) (idx : List Nat) : Rat :=
  (((edges.zip limits).zip idx).map (fun p =>
    max 0 (min p.1.2.2 (p.1.1.getD (p.2 + 1) 0) - max p.1.2.1 (p.1.1.getD p.2 0)))).prod

/-- The integral over `limits` of the function that has the constant value `d idx` in every bin and is zero elsewhere. -/
def stepIntegral (edges : List (List Rat)) (d : Arr) (limits : Box) : Rat := tot edges (fun idx => d idx * overlap edges limits idx)

/-! ## C105: binning integrates -/

theorem overNorm_part (u : UPdf) (n : Option Box) (edges : List (List Rat)) (idx : List Nat) (h : IsBin edges idx) :
    overNorm u n (binValues edges u.integral) idx = part u n (binBox edges idx) := by
  cases n with
  | none => exact binValues_eq _ _ _ h
  | some b => simp only [overNorm, part, binValues_eq _ _ _ h]

/-- C105: for every norm, and without one, the relative counts of a binned PDF are the integrals of the PDF over the bins, over the
integral over the norm; the density is that over the area of the bin. -/
theorem binned_rel_counts (u : UPdf) (edges : List (List Rat)) (space norm : Box) (extended : Option Rat) (n : Option Box) :
    ∃ c, EndsA (binnedPdf u edges space norm extended) (.relCounts n) (.ok c) ∧
      EndsA (binnedPdf u edges space norm extended) (.pdf n) (.ok (fun idx => c idx / areaOf edges idx)) ∧
      ∀ idx, IsBin edges idx → c idx = part u n (binBox edges idx) := by
  refine ⟨overNorm u n (binValues edges u.integral), endsA_of 1 (fun m => ?_), endsA_of 2 (fun m => ?_),
    fun idx h => overNorm_part u n edges idx h⟩
  · simp [BPdf.runA, BPdf.stepA, binnedPdf, autoNorm, callHook, suppress]
  · simp only [BPdf.runA, BPdf.stepA, binnedPdf, autoNorm, callHook, suppress, M.bind', BPdf.overArea]
    rfl

/-- C105: if the integral of the PDF is additive, the relative counts of all bins add up to the integral from the first to the last
edges over the integral over the norm, which is one if the norm is that range. -/
theorem binned_rel_counts_sum (u : UPdf) (hu : Additive u.integral) (edges : List (List Rat)) (he : ∀ e ∈ edges, GoodEdges e)
    (space norm : Box) (extended : Option Rat) (n : Option Box) :
    ∃ c, EndsA (binnedPdf u edges space norm extended) (.relCounts n) (.ok c) ∧ tot edges c = part u n (hull edges) ∧
      (n = some (hull edges) → u.integral (hull edges) ≠ 0 → tot edges c = 1) := by
  obtain ⟨c, h1, -, h3⟩ := binned_rel_counts u edges space norm extended n
  have h4 : tot edges c = part u n (hull edges) := by
    rw [tot_congr (d := fun idx => part u n (binBox edges idx)) (fun i hi => h3 i hi)]
    cases n with
    | none => exact additive_hull hu edges he
    | some b =>
      simp only [part]
      rw [tot_div edges (fun idx => u.integral (binBox edges idx)), additive_hull hu edges he]
  refine ⟨c, h1, h4, fun hn h0 => ?_⟩
  rw [h4, hn]
  exact div_self h0

theorem binned_counts_ends (u : UPdf) (edges : List (List Rat)) (space norm : Box) (extended : Option Rat) (y : Rat)
    (hy : (binnedPdf u edges space norm extended).yield = some y) (hu : u.yield = none ∨ extended = none) (n : Option Box)
    (hn : ∀ b, n = some b → b = space) :
    ∃ c, EndsA (binnedPdf u edges space norm extended) (.counts n) (.ok c) ∧
      EndsA (binnedPdf u edges space norm extended) (.extPdf n) (.ok (fun idx => c idx / areaOf edges idx)) ∧
      ∀ idx, IsBin edges idx → c idx = y * part u n (binBox edges idx) := by
  refine ⟨overNorm u n (rawCounts u edges extended), endsA_of 1 (fun m => ?_), endsA_of 1 (fun m => ?_), ?_⟩
  · cases n with
    | none => simp [BPdf.runA, BPdf.stepA, binnedPdf, autoNorm, callHook, suppress, supportsNorm]
    | some b =>
      obtain rfl := hn b rfl
      simp [BPdf.runA, BPdf.stepA, binnedPdf, autoNorm, callHook, suppress, supportsNorm]
  · cases n with
    | none =>
      simp only [BPdf.runA, BPdf.stepA, binnedPdf, autoNorm, callHook, suppress, supportsNorm, BPdf.overArea, M.bind']
      rfl
    | some b =>
      obtain rfl := hn b rfl
      simp only [BPdf.runA, BPdf.stepA, binnedPdf, autoNorm, callHook, suppress, supportsNorm, BPdf.overArea, M.bind', decide_true,
        if_true]
      rfl
  · intro idx hidx
    unfold rawCounts
    cases hyu : u.yield with
    | some y0 =>
      have hext : extended = none := by
        rcases hu with h | h
        · rw [h] at hyu; cases hyu
        · exact h
      have hy0 : y0 = y := by
        simp only [binnedPdf, hyu, hext] at hy
        exact Option.some.inj hy
      subst hy0
      cases n with
      | none => simp only [overNorm, part, binValues_eq _ _ _ hidx]; ring
      | some b => simp only [overNorm, part, binValues_eq _ _ _ hidx]; ring
    | none =>
      have hext : extended = some y := by
        simp only [binnedPdf, hyu] at hy
        exact hy
      subst hext
      cases n with
      | none => simp only [overNorm, part, binValues_eq _ _ _ hidx, Option.getD_some]; ring
      | some b => simp only [overNorm, part, binValues_eq _ _ _ hidx, Option.getD_some]; ring

/-! ## C106: the yield -/

/-- C106 (partly): unless the PDF was extended already and another yield is given, the counts, normalised over the space or not
normalised, are the yield of the binned PDF times the parts of the PDF in the bins; `ext_pdf` is that over the area. Missing: see
`binned_given_yield_violated`. -/
theorem binned_counts_partial (u : UPdf) (edges : List (List Rat)) (space norm : Box) (extended : Option Rat) (y : Rat)
    (hy : (binnedPdf u edges space norm extended).yield = some y) (hu : u.yield = none ∨ extended = none) (n : Option Box)
    (hn : ∀ b, n = some b → b = space) :
    ∃ c, EndsA (binnedPdf u edges space norm extended) (.counts n) (.ok c) ∧
      EndsA (binnedPdf u edges space norm extended) (.extPdf n) (.ok (fun idx => c idx / areaOf edges idx)) ∧
      ∀ idx, IsBin edges idx → c idx = y * part u n (binBox edges idx) :=
  binned_counts_ends u edges space norm extended y hy hu n hn

/-- C106 (partly): the counts add up to the yield, if the space is the range of the bins and the integral is additive. Missing from the full
claim: the cases of `binned_given_yield_violated`. -/
theorem binned_counts_sum_partial (u : UPdf) (hu : Additive u.integral) (edges : List (List Rat)) (he : ∀ e ∈ edges, GoodEdges e)
    (norm : Box) (extended : Option Rat) (y : Rat) (hy : (binnedPdf u edges (hull edges) norm extended).yield = some y)
    (hext : u.yield = none ∨ extended = none) (h0 : u.integral (hull edges) ≠ 0) :
    ∃ c, EndsA (binnedPdf u edges (hull edges) norm extended) (.counts (some (hull edges))) (.ok c) ∧ tot edges c = y := by
  obtain ⟨c, h1, -, h3⟩ := binned_counts_ends u edges (hull edges) norm extended y hy hext (some (hull edges))
    (fun b hb => (Option.some.inj hb).symm)
  refine ⟨c, h1, ?_⟩
  rw [tot_congr (d := fun idx => u.integral (binBox edges idx) * (y / u.integral (hull edges))) (fun i hi => by
    rw [h3 i hi]; simp only [part]; ring), tot_mul edges (fun idx => u.integral (binBox edges idx)), additive_hull hu edges he]
  field_simp

/-- C106 is violated: if an extended PDF is binned and a yield is given, a warning says that the given yield is used and
`get_yield` returns it, but the counts add up to the yield the PDF had before. -/
theorem binned_given_yield_violated (I : Box → Rat) (hI : Additive I) (edges : List (List Rat)) (he : ∀ e ∈ edges, GoodEdges e)
    (norm : Box) (y0 y : Rat) (h0 : I (hull edges) ≠ 0) :
    (binnedPdf ⟨I, some y0⟩ edges (hull edges) norm (some y)).yield = some y ∧
    ∃ c, EndsA (binnedPdf ⟨I, some y0⟩ edges (hull edges) norm (some y)) (.counts (some (hull edges))) (.ok c) ∧
      tot edges c = y0 := by
  refine ⟨rfl, overNorm ⟨I, some y0⟩ (some (hull edges)) (binValues edges (fun b => I b * y0)), endsA_of 1 (fun m => ?_), ?_⟩
  · simp [BPdf.runA, BPdf.stepA, binnedPdf, autoNorm, callHook, suppress, supportsNorm, rawCounts]
  · rw [tot_congr (d := fun idx => I (binBox edges idx) * (y0 / I (hull edges))) (fun i hi => by
      simp only [overNorm, binValues_eq _ _ _ hi]; ring), tot_mul edges (fun idx => I (binBox edges idx)), additive_hull hI edges he]
    field_simp

/-! ## C107: counts and relative counts -/

theorem binned_counts_other (u : UPdf) (edges : List (List Rat)) (space norm : Box) (extended : Option Rat) (y : Rat)
    (hy : (binnedPdf u edges space norm extended).yield = some y) (hu : u.yield = none ∨ extended = none) (b : Box) (hb : b ≠ space) :
    ∃ c, EndsA (binnedPdf u edges space norm extended) (.counts (some b)) (.ok c) ∧
      ∀ idx, IsBin edges idx → c idx = y * u.integral (binBox edges idx) /
        rectIntegration ⟨edges.map (fun e => e.length - 1), binValues edges u.integral⟩ edges b := by
  refine ⟨fun idx => (rawCounts u edges extended) idx /
        rectIntegration ⟨edges.map (fun e => e.length - 1), binValues edges u.integral⟩ edges b, endsA_of 5 (fun m => ?_), ?_⟩
  · simp [BPdf.runA, BPdf.runN, BPdf.stepA, BPdf.stepN, binnedPdf, autoNorm, callHook, suppress, supportsNorm, hb, M.bind', overNorm,
      BPdf.rect, BPdf.shape]
  · intro idx hidx
    simp only []
    congr 1
    unfold rawCounts
    cases hyu : u.yield with
    | some y0 =>
      have hext : extended = none := by
        rcases hu with h | h
        · rw [h] at hyu; cases hyu
        · exact h
      have hy0 : y0 = y := by
        simp only [binnedPdf, hyu, hext] at hy
        exact Option.some.inj hy
      subst hy0
      simp only [binValues_eq _ _ _ hidx]
      ring
    | none =>
      have hext : extended = some y := by
        simp only [binnedPdf, hyu] at hy
        exact hy
      subst hext
      simp only [binValues_eq _ _ _ hidx, Option.getD_some]
      ring

/-- C107 (partly): without norm, normalised over the space, or over any range of whole bins, the counts are the yield times the
relative counts. Missing: norms that cut bins or are larger than the binning, see `binned_counts_cut_norm_violated`. -/
theorem binned_counts_rel_partial (u : UPdf) (hI : Additive u.integral) (axes : List (List Rat × Nat × Nat)) (ha : Aligned axes)
    (space norm : Box) (extended : Option Rat) (y : Rat)
    (hy : (binnedPdf u (axes.map (·.1)) space norm extended).yield = some y) (hu : u.yield = none ∨ extended = none)
    (n : Option Box) (hn : n = none ∨ n = some space ∨ n = some (alignedBox axes)) :
    ∃ c r, EndsA (binnedPdf u (axes.map (·.1)) space norm extended) (.counts n) (.ok c) ∧
      EndsA (binnedPdf u (axes.map (·.1)) space norm extended) (.relCounts n) (.ok r) ∧
      ∀ idx, IsBin (axes.map (·.1)) idx → c idx = y * r idx := by
  obtain ⟨r, hr1, -, hr3⟩ := binned_rel_counts u (axes.map (·.1)) space norm extended n
  by_cases hs : ∀ b, n = some b → b = space
  · obtain ⟨c, h1, -, h3⟩ := binned_counts_ends u (axes.map (·.1)) space norm extended y hy hu n hs
    exact ⟨c, r, h1, hr1, fun idx hidx => by rw [h3 idx hidx, hr3 idx hidx]⟩
  · push Not at hs
    obtain ⟨b, rfl, hb⟩ := hs
    have hb' : b = alignedBox axes := by
      rcases hn with h | h | h
      · cases h
      · exact absurd (Option.some.inj h) hb
      · exact Option.some.inj h
    obtain ⟨c, h1, h3⟩ := binned_counts_other u (axes.map (·.1)) space norm extended y hy hu b hb
    refine ⟨c, r, h1, hr1, fun idx hidx => ?_⟩
    rw [h3 idx hidx, hr3 idx hidx]
    have e : rectIntegration ⟨(axes.map (·.1)).map (fun e => e.length - 1), binValues (axes.map (·.1)) u.integral⟩ (axes.map (·.1)) b =
        u.integral b := by
      rw [hb', rect_aligned _ _ axes ha, ← additive_aligned hI axes ha]
      congr 1
      apply List.map_congr_left
      intro i hi
      rw [binValues_eq _ _ _ (by unfold IsBin; rw [List.map_map]; exact hi)]
    rw [e]
    simp only [part]
    ring

/-- The integral of the density `∏ 2 x_i`. -/
def parab (b : Box) : Rat := (b.map (fun p => p.2 ^ 2 - p.1 ^ 2)).prod

theorem parab_additive : Additive parab := by
  intro pre post a b c _ _
  simp only [parab, List.map_append, List.map_cons, List.prod_append, List.prod_cons]
  ring

/-- C107 is violated: normalised over a range that ends inside a bin the counts are normalised with the fraction of the bin, the
relative counts with the integral of the PDF; the same for a range larger than the binning. -/
theorem binned_counts_cut_norm_violated :
    (∃ c r, EndsA (binnedPdf ⟨parab, some 10⟩ [[0, 2]] [(0, 2)] [(0, 2)] none) (.counts (some [(0, 1)])) (.ok c) ∧
      EndsA (binnedPdf ⟨parab, some 10⟩ [[0, 2]] [(0, 2)] [(0, 2)] none) (.relCounts (some [(0, 1)])) (.ok r) ∧
      c [0] = 20 ∧ 10 * r [0] = 40) ∧
    (∃ c r, EndsA (binnedPdf ⟨parab, some 10⟩ [[0, 2]] [(0, 2)] [(0, 2)] none) (.counts (some [(0, 4)])) (.ok c) ∧
      EndsA (binnedPdf ⟨parab, some 10⟩ [[0, 2]] [(0, 2)] [(0, 2)] none) (.relCounts (some [(0, 4)])) (.ok r) ∧
      c [0] = 10 ∧ 10 * r [0] = 5 / 2) := by
  have hb : IsBin [[0, 2]] [0] := by unfold IsBin; decide
  have key : ∀ n : Box, n ≠ [(0, 2)] → ∀ z, rectIntegration ⟨[1], binValues [[0, 2]] parab⟩ [[0, 2]] n = z →
      ∃ c r, EndsA (binnedPdf ⟨parab, some 10⟩ [[0, 2]] [(0, 2)] [(0, 2)] none) (.counts (some n)) (.ok c) ∧
      EndsA (binnedPdf ⟨parab, some 10⟩ [[0, 2]] [(0, 2)] [(0, 2)] none) (.relCounts (some n)) (.ok r) ∧
      c [0] = 40 / z ∧ 10 * r [0] = 40 / parab n := by
    intro n hn z hz
    obtain ⟨c, h1, h3⟩ := binned_counts_other ⟨parab, some 10⟩ [[0, 2]] [(0, 2)] [(0, 2)] none 10 rfl (Or.inr rfl) n hn
    obtain ⟨r, hr1, -, hr3⟩ := binned_rel_counts ⟨parab, some 10⟩ [[0, 2]] [(0, 2)] [(0, 2)] none (some n)
    refine ⟨c, r, h1, hr1, ?_, ?_⟩
    · rw [h3 [0] hb]
      simp only [List.map_cons, List.map_nil, List.length_cons, List.length_nil]
      rw [hz]
      norm_num [binBox, parab]
    · rw [hr3 [0] hb]
      simp only [part]
      norm_num [binBox, parab]
      ring
  refine ⟨?_, ?_⟩
  · obtain ⟨c, r, h1, h2, h3, h4⟩ := key [(0, 1)] (by decide +kernel) 2 (by decide +kernel)
    exact ⟨c, r, h1, h2, by rw [h3]; norm_num, by rw [h4]; norm_num [parab]⟩
  · obtain ⟨c, r, h1, h2, h3, h4⟩ := key [(0, 4)] (by decide +kernel) 4 (by decide +kernel)
    exact ⟨c, r, h1, h2, by rw [h3]; norm_num, by rw [h4]; norm_num [parab]⟩

/-! ### Non-vacuity -/

theorem good02 : GoodEdges [0, 1, 3] := ⟨by decide +kernel, by decide⟩
theorem good13 : GoodEdges [1, 2, 3, 5] := ⟨by decide +kernel, by decide⟩

/-- Two axes with different numbers of bins: bin (1, 2) is the box `(1, 3) × (3, 5)`. -/
example : binBox [[0, 1, 3], [1, 2, 3, 5]] [1, 2] = [(1, 3), (3, 5)] ∧
    binValues [[0, 1, 3], [1, 2, 3, 5]] parab [1, 2] = 8 * 16 ∧ parab (hull [[0, 1, 3], [1, 2, 3, 5]]) = 9 * 24 := by decide +kernel

example := binned_rel_counts_sum ⟨parab, some 7⟩ parab_additive [[0, 1, 3], [1, 2, 3, 5]]
  (by intro e he; simp only [List.mem_cons, List.not_mem_nil, or_false] at he; rcases he with rfl | rfl; exacts [good02, good13])
  (hull [[0, 1, 3], [1, 2, 3, 5]]) (hull [[0, 1, 3], [1, 2, 3, 5]]) none (some (hull [[0, 1, 3], [1, 2, 3, 5]]))

example := binned_counts_sum_partial ⟨parab, none⟩ parab_additive [[0, 1, 3], [1, 2, 3, 5]]
  (by intro e he; simp only [List.mem_cons, List.not_mem_nil, or_false] at he; rcases he with rfl | rfl; exacts [good02, good13])
  (hull [[0, 1, 3], [1, 2, 3, 5]]) (some 7) 7 rfl (Or.inl rfl) (by decide +kernel)

example := binned_given_yield_violated parab parab_additive [[0, 1, 3]] (by simp [good02]) (hull [[0, 1, 3]]) 100 7 (by decide +kernel)

example := binned_counts_rel_partial ⟨parab, some 7⟩ parab_additive [([0, 1, 3], 1, 2), ([1, 2, 3, 5], 0, 2)]
  (by intro a ha; simp only [List.mem_cons, List.not_mem_nil, or_false] at ha; rcases ha with rfl | rfl;
      exacts [⟨good02, by decide, by decide⟩, ⟨good13, by decide, by decide⟩])
  [(0, 3), (1, 5)] [(0, 3), (1, 5)] none 7 rfl (Or.inr rfl) (some [(1, 3), (1, 3)]) (Or.inr (Or.inr (by decide +kernel)))

end Zfit.Convert
