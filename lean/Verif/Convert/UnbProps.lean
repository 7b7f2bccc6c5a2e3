import Verif.Convert.Props

/-! # Theorems about unbinned PDFs made from binned ones: C108 - C112 -/

namespace Zfit.Convert

open Zfit Zfit.Bin Zfit.BinPdf

theorem ends_of {α : Type} {f : Nat → M α} {v : Except Err α} (k : Nat) (h : ∀ m, k ≤ m → f m = some v) : Ends f v := ⟨k, h⟩

/-- Every point is in a bin or outside. -/
theorem inside_or_outside (s : BSpace) (x : String → Rat) (hs : s.Proper) :
    (∃ f : String → Nat, ∀ a ∈ s.axes, inBin true a.edges (f a.name) (x a.name)) ∨
    (∃ a ∈ s.axes, inRange true a.edges (x a.name) = false) := by
  by_cases h : ∃ a ∈ s.axes, inRange true a.edges (x a.name) = false
  · exact Or.inr h
  · push Not at h
    refine Or.inl ⟨fun nm => match s.axes.find? (fun a => a.name = nm) with
      | some a => (tfpFindBin a.edges (x a.name)).getD 0
      | none => 0, fun a ha => ?_⟩
    have hr : inRange true a.edges (x a.name) = true := by
      have := h a ha
      simpa using this
    have hfind : s.axes.find? (fun b => b.name = a.name) = some a := by
      have hnd : (s.axes.map (·.name)).Nodup := hs.1
      clear h hs hr
      generalize s.axes = l at ha hnd
      induction l with
      | nil => cases ha
      | cons b l ih =>
        rw [List.map_cons, List.nodup_cons] at hnd
        rw [List.mem_cons] at ha
        rw [List.find?_cons]
        rcases ha with rfl | ha
        · simp
        · have hne : b.name ≠ a.name := fun hh => hnd.1 (hh ▸ List.mem_map.2 ⟨a, ha, rfl⟩)
          simp only [hne, decide_false]
          exact ih ha hnd.2
    have h1 : (findBin true a.edges (x a.name)).isSome := by rw [findBin_isSome (hs.2 a ha)]; exact hr
    obtain ⟨k, hk⟩ := Option.isSome_iff_exists.1 h1
    have hk' : tfpFindBin a.edges (x a.name) = some k := hk
    simp only [hfind, hk', Option.getD_some]
    exact (findBin_iff (hs.2 a ha)).1 hk

/-! ## C108: a step function -/

/-- C108: the density of the unbinned PDF with its own norm at a point is the density of the binned PDF (normalised over the binned norm) in
the bin of the point; outside of the bins it is zero. Whatever space, norm and yield were given. -/
theorem unbinned_pdf_is_step (b : BPdf) (s : BSpace) (hs : s.Proper) (obs : Option Box) (ext : ExtArg) (norm : Option Box) (d : Arr)
    (hd : EndsA b (.pdf (some b.norm)) (.ok d)) (x : String → Rat) :
    (∀ f : String → Nat, (∀ a ∈ s.axes, inBin true a.edges (f a.name) (x a.name)) →
      Ends (fun k => (unbinned b s obs ext norm).pdf k x (some (unbinned b s obs ext norm).norm))
        (.ok (d (s.axes.map (fun a => f a.name))))) ∧
    ((∃ a ∈ s.axes, inRange true a.edges (x a.name) = false) →
      Ends (fun k => (unbinned b s obs ext norm).pdf k x (some (unbinned b s obs ext norm).norm)) (.ok 0)) := by
  obtain ⟨n, hn⟩ := hd
  have key : ∀ m, n ≤ m → (unbinned b s obs ext norm).pdf m x (some (unbinned b s obs ext norm).norm) =
      some (.ok (gatherAt s d x)) := by
    intro m hm
    simp only [Unb.pdf, Unb.normed, if_true, Unb.pdfHook, Unb.binnedNorm]
    rw [show (unbinned b s obs ext norm).b = b from rfl, hn m hm]
    rfl
  refine ⟨fun f hf => ⟨n, fun m hm => ?_⟩, fun h => ⟨n, fun m hm => ?_⟩⟩
  · exact (key m hm).trans (by rw [gather_inside hs d hf])
  · exact (key m hm).trans (by rw [gather_outside hs d h])

/-- Integrals of the binned PDF are integrals of the step function. -/
theorem rect_is_step (edges : List (List Rat)) (c : Arr) (limits : Box) (hlen : limits.length = edges.length)
    (hall : ∀ a ∈ edges.zip limits, GoodEdges a.1 ∧ Meets a.1 a.2) :
    rectIntegration ⟨edges.map (fun e => e.length - 1), c⟩ edges limits = stepIntegral edges (fun i => c i / areaOf edges i) limits := by
  rw [binned_integral_partial _ _ _ hlen hall]
  unfold coveredSum stepIntegral tot
  congr 1
  apply List.map_congr_left
  intro idx hidx
  simp only []
  rw [div_mul_eq_mul_div, mul_div_assoc]
  congr 1
  have hb := allIdx_forall (edges := edges) hidx
  unfold overlap areaOf
  clear hidx hall
  induction edges generalizing limits idx with
  | nil => simp
  | cons e edges ih =>
    cases limits with
    | nil => simp at hlen
    | cons l limits =>
      cases idx with
      | nil => simp at hb
      | cons i idx =>
        simp only [List.zip_cons_cons, List.map_cons, List.prod_cons]
        rw [ih limits (by simpa using hlen) idx ⟨by simpa using hb.1, fun q hq => hb.2 q (by simp [hq])⟩]
        unfold coverage width
        rw [div_mul_div_comm]

/-- C108: the integral of the unbinned PDF with its own norm over any box that meets the bins is the integral of this step function. -/
theorem unbinned_integral_is_step (b : BPdf) (s : BSpace) (obs : Option Box) (ext : ExtArg) (norm : Option Box) (c : Arr)
    (hi : b.integrate = none) (hc : EndsA b (.relCounts (some b.norm)) (.ok c)) (limits : Box)
    (hlen : limits.length = b.edges.length) (hall : ∀ a ∈ b.edges.zip limits, GoodEdges a.1 ∧ Meets a.1 a.2) :
    Ends (fun k => (unbinned b s obs ext norm).integrate k limits (some (unbinned b s obs ext norm).norm))
      (.ok (stepIntegral b.edges (fun i => c i / areaOf b.edges i) limits)) := by
  obtain ⟨n, hn⟩ := hc
  refine ⟨n + 2, fun m hm => ?_⟩
  obtain ⟨j, rfl⟩ : ∃ j, m = j + 2 := ⟨m - 2, by omega⟩
  simp only [Unb.integrate, Unb.normed, if_true, Unb.integrateHook, Unb.binnedNorm]
  rw [show (unbinned b s obs ext norm).b = b from rfl]
  simp only [BPdf.runN, BPdf.stepN, hi, suppress]
  rw [hn (j + 1) (by omega)]
  simp only [M.bind', BPdf.rect, BPdf.shape]
  rw [rect_is_step b.edges c limits hlen hall]

/-! ## C109: binning what was unbinned -/

/-- The unnormalised integral of the unbinned PDF over a bin is the relative count of the bin. -/
theorem integral_of_bin (edges : List (List Rat)) (he : ∀ e ∈ edges, GoodEdges e) (c : Arr) (idx : List Nat) (h : IsBin edges idx) :
    rectIntegration ⟨edges.map (fun e => e.length - 1), c⟩ edges (binBox edges idx) = c idx := by
  obtain ⟨hl, hb⟩ := allIdx_forall h
  have h1 : (edges.zip idx).map (·.1) = edges := List.map_fst_zip (by omega)
  set axes : List (List Rat × Nat × Nat) := (edges.zip idx).map (fun q => (q.1, q.2, q.2 + 1)) with haxes
  have h2 : axes.map (·.1) = edges := by rw [haxes, List.map_map]; exact h1
  have h3 : alignedBox axes = binBox edges idx := by
    unfold alignedBox binBox
    rw [haxes, List.map_map]
    rfl
  have h4 : Aligned axes := by
    intro a ha
    obtain ⟨q, hq, rfl⟩ := List.mem_map.1 ha
    exact ⟨he _ (List.of_mem_zip hq).1, Nat.le_succ _, hb q hq⟩
  have key := rect_aligned c (edges.map (fun e => e.length - 1)) axes h4
  rw [h2, h3] at key
  rw [key]
  rw [show axes.map (fun a => a.1.length - 1) = edges.map (fun e => e.length - 1) by
    conv_rhs => rw [← h2, List.map_map]
    rfl]
  unfold IsBin at h
  rw [haxes]
  clear key h4 h3 h2 haxes axes h1 hb
  clear he
  induction edges generalizing idx c with
  | nil => simp only [List.map_nil, allIdx, List.mem_singleton] at h; subst h; simp [allIdx]
  | cons e edges ih =>
    rw [List.map_cons] at h
    obtain ⟨i, hi, r, hr, rfl⟩ := mem_allIdx_cons.1 h
    rw [show allIdx ((e :: edges).map (fun e => e.length - 1)) = (List.range (e.length - 1)).flatMap
      (fun i => (allIdx (edges.map (fun e => e.length - 1))).map (i :: ·)) from rfl, flatMap_sum, list_range_sum]
    rw [Finset.sum_eq_single i]
    · rw [← ih (fun idx => c (i :: idx)) r hr (by simpa using hl)]
      congr 1
      apply List.map_congr_left
      intro idx _
      simp
    · intro k _ hk
      have hk' : ¬ (i ≤ k ∧ k < i + 1) := by omega
      apply List.sum_eq_zero
      intro x hx
      obtain ⟨idx, _, rfl⟩ := List.mem_map.1 hx
      simp only [List.zip_cons_cons, List.map_cons, List.prod_cons, if_neg hk', zero_mul, mul_zero]
    · intro hk
      exact absurd (Finset.mem_range.2 hi) hk

/-- C109: making a binned PDF unbinned and binning the result with the same edges gives back its relative counts: without norm the same,
with a norm divided by the integral over the norm; in particular they are the same for a norm over which the PDF is normalised. -/
theorem unbin_bin_roundtrip (b : BPdf) (s : BSpace) (obs : Option Box) (ext : ExtArg) (norm : Option Box) (c : Arr)
    (hi : b.integrate = none) (he : ∀ e ∈ b.edges, GoodEdges e) (hc : EndsA b (.relCounts none) (.ok c)) (I : Box → Rat)
    (hI : ∀ l, Ends (fun k => (unbinned b s obs ext norm).integrate k l none) (.ok (I l))) (y : Option Rat) (space bnorm : Box)
    (n : Option Box) :
    ∃ r, EndsA (binnedPdf ⟨I, y⟩ b.edges space bnorm none) (.relCounts n) (.ok r) ∧
      ∀ idx, IsBin b.edges idx → r idx = match n with
        | none => c idx
        | some l => c idx / I l := by
  obtain ⟨r, h1, -, h3⟩ := binned_rel_counts ⟨I, y⟩ b.edges space bnorm none n
  have hbin : ∀ idx, IsBin b.edges idx → I (binBox b.edges idx) = c idx := by
    intro idx hidx
    obtain ⟨k1, hk1⟩ := hI (binBox b.edges idx)
    obtain ⟨k2, hk2⟩ := hc
    have e1 := hk1 (k1 + k2 + 2) (by omega)
    have e2 := hk2 (k1 + k2 + 1) (by omega)
    simp only [Unb.integrate, Unb.normed, Unb.integrateHook, Unb.binnedNorm] at e1
    rw [show (unbinned b s obs ext norm).b = b from rfl] at e1
    simp only [BPdf.runN, BPdf.stepN, hi, suppress] at e1
    rw [e2] at e1
    simp only [M.bind', BPdf.rect, BPdf.shape] at e1
    rw [integral_of_bin b.edges he c idx hidx] at e1
    simpa using e1.symm
  refine ⟨r, h1, fun idx hidx => ?_⟩
  rw [h3 idx hidx]
  cases n with
  | none => exact hbin idx hidx
  | some l => simp only [part]; rw [hbin idx hidx]

/-! ## C110: normalisation -/

/-- C110 (partly): for every norm other than its own (for example for a smaller range asked for in the call), the integral over that norm is
one, if the PDF has a part there. Missing from the full claim: the cases of `unbinned_own_norm_violated`. -/
theorem unbinned_normalised_partial (b : BPdf) (s : BSpace) (obs : Option Box) (ext : ExtArg) (norm : Option Box) (n : Box)
    (hn : n ≠ (unbinned b s obs ext norm).norm) (z : Rat) (hz : EndsN b (.integrate [n] none) (.ok z)) (h0 : z ≠ 0) :
    Ends (fun k => (unbinned b s obs ext norm).integrate k n (some n)) (.ok 1) := by
  obtain ⟨k, hk⟩ := hz
  refine ⟨k, fun m hm => ?_⟩
  have h := hk m hm
  simp only [Unb.integrate, Unb.normed, if_neg hn, Unb.normalization, Unb.integrateHook, Unb.binnedNorm]
  rw [show (unbinned b s obs ext norm).b = b from rfl, h]
  simp only [M.bind', div_self h0]

/-- C110 (partly): for its own norm this holds if that covers the bins and the binned PDF's relative counts for the binned norm
add up to one. Missing from the full claim: the cases of `unbinned_own_norm_violated`. -/
theorem unbinned_normalised_default_partial (b : BPdf) (s : BSpace) (obs : Option Box) (ext : ExtArg) (norm : Option Box) (c : Arr)
    (hi : b.integrate = none) (hc : EndsA b (.relCounts (some b.norm)) (.ok c)) (h1 : tot b.edges c = 1)
    (hlen : (unbinned b s obs ext norm).norm.length = b.edges.length)
    (hall : ∀ a ∈ b.edges.zip (unbinned b s obs ext norm).norm, GoodEdges a.1 ∧ a.2.1 ≤ a.1.headD 0 ∧ a.1.getLastD 0 ≤ a.2.2) :
    Ends (fun k => (unbinned b s obs ext norm).integrate k (unbinned b s obs ext norm).norm (some (unbinned b s obs ext norm).norm))
      (.ok 1) := by
  obtain ⟨n, hn⟩ := hc
  refine ⟨n + 2, fun m hm => ?_⟩
  obtain ⟨j, rfl⟩ : ∃ j, m = j + 2 := ⟨m - 2, by omega⟩
  simp only [Unb.integrate, Unb.normed, if_true, Unb.integrateHook, Unb.binnedNorm]
  generalize hN : (unbinned b s obs ext norm).norm = N at hlen hall ⊢
  rw [show (unbinned b s obs ext norm).b = b from rfl]
  simp only [BPdf.runN, BPdf.stepN, hi, suppress]
  rw [hn (j + 1) (by omega)]
  simp only [M.bind', BPdf.rect, BPdf.shape]
  rw [binned_integral_whole _ _ _ hlen rfl hall]
  exact congrArg (fun t => some (Except.ok t)) h1

/-- A histogram with three bins of width one and content 1, 1 and 2. -/
def hist3 : BPdf := histogramPdf [[0, 1, 2, 3]] (fun i => if i = [2] then 2 else 1) [(0, 3)] [(0, 3)] .auto
/-- Its space. -/
def space3 : BSpace := ⟨[⟨"x", [0, 1, 2, 3]⟩]⟩

theorem hist3_rel (n : Option Box) (hn : ∀ b, n = some b → b = [(0, 3)]) :
    EndsA hist3 (.relCounts n) (.ok (fun i => (if i = [2] then 2 else 1) / 4)) := by
  have ht : tot [[0, 1, 2, 3]] (fun i => if i = [2] then 2 else 1) = 4 := by decide +kernel
  refine endsA_of 1 (fun m => ?_)
  cases n with
  | none => simp [BPdf.runA, BPdf.stepA, hist3, histogramPdf, autoNorm, callHook, suppress, supportsNorm, ht]
  | some b =>
    obtain rfl := hn b rfl
    simp [BPdf.runA, BPdf.stepA, hist3, histogramPdf, autoNorm, callHook, suppress, supportsNorm, ht]

theorem hist3_integrate (l : Box) (n : Option Box) (hn : ∀ b, n = some b → b = [(0, 3)]) :
    EndsN hist3 (.integrate [l] n) (.ok (rectIntegration ⟨[3], fun i => (if i = [2] then 2 else 1) / 4⟩ [[0, 1, 2, 3]] l)) := by
  obtain ⟨k, hk⟩ := hist3_rel n hn
  refine ⟨k + 2, fun m hm => ?_⟩
  obtain ⟨j, rfl⟩ : ∃ j, m = j + 2 := ⟨m - 2, by omega⟩
  simp only [BPdf.runN, BPdf.stepN, show hist3.integrate = none from rfl, suppress]
  rw [hk (j + 1) (by omega)]
  rfl

/-- C110 is violated: the unbinned PDF made with a space smaller than that of the binned PDF has the smaller space as its norm, but is
normalised over the whole range of the bins: here its integral over its own norm is 1/4. Asked for a norm that is a little
larger, the integral over that one is one. -/
theorem unbinned_own_norm_violated :
    (unbinned hist3 space3 (some [(0, 1)]) .none none).norm = [(0, 1)] ∧
    Ends (fun k => (unbinned hist3 space3 (some [(0, 1)]) .none none).integrate k [(0, 1)] (some [(0, 1)])) (.ok (1 / 4)) ∧
    Ends (fun k => (unbinned hist3 space3 (some [(0, 1)]) .none none).integrate k [(0, 3/2)] (some [(0, 3/2)])) (.ok 1) := by
  refine ⟨rfl, ?_, ?_⟩
  · obtain ⟨k, hk⟩ := hist3_integrate [(0, 1)] (some [(0, 3)]) (fun b hb => (Option.some.inj hb).symm)
    refine ⟨k, fun m hm => ?_⟩
    simp only [Unb.integrate, Unb.normed, unbinned, Option.getD_some, Option.getD_none, if_true, Unb.integrateHook, Unb.binnedNorm]
    rw [show hist3.norm = [(0, 3)] from rfl, hk m hm]
    congr 2
    decide +kernel
  · exact unbinned_normalised_partial hist3 space3 (some [(0, 1)]) .none none [(0, 3/2)] (by simp [unbinned]; norm_num) (3/8)
      (by
        have := hist3_integrate [(0, 3/2)] none (fun b hb => by cases hb)
        rwa [show rectIntegration ⟨[3], fun i => (if i = [2] then 2 else 1) / 4⟩ [[0, 1, 2, 3]] [(0, 3/2)] = 3/8 by decide +kernel]
          at this) (by norm_num)

/-! ## C111: the yield -/

/-- C111 (partly): if no yield is given, `ext_integrate` is the yield of the binned PDF times the integral and `ext_pdf` is that of the binned
PDF in the bin of the point. Missing from the full claim: the cases of `unbinned_given_yield_violated`. -/
theorem unbinned_yield_partial (b : BPdf) (s : BSpace) (hs : s.Proper) (obs norm : Option Box) (y : Rat) (hy : b.yield = some y) (d : Arr)
    (hd : EndsA b (.extPdf (some b.norm)) (.ok d)) (v : Rat) (limits : Box)
    (hv : Ends (fun k => (unbinned b s obs .none norm).integrate k limits (some (unbinned b s obs .none norm).norm)) (.ok v))
    (x : String → Rat) (f : String → Nat) (hx : ∀ a ∈ s.axes, inBin true a.edges (f a.name) (x a.name)) :
    (unbinned b s obs .none norm).yield = some y ∧
    Ends (fun k => (unbinned b s obs .none norm).extIntegrate k limits (some (unbinned b s obs .none norm).norm)) (.ok (v * y)) ∧
    Ends (fun k => (unbinned b s obs .none norm).extPdf k x (some (unbinned b s obs .none norm).norm))
      (.ok (d (s.axes.map (fun a => f a.name)))) := by
  have hyy : (unbinned b s obs .none norm).yield = some y := hy
  refine ⟨hyy, ?_, ?_⟩
  · obtain ⟨k, hk⟩ := hv
    refine ⟨k, fun m hm => ?_⟩
    have h := hk m hm
    simp only at h
    simp only [Unb.extIntegrate, hyy]
    rw [h]
    rfl
  · obtain ⟨k, hk⟩ := hd
    refine ⟨k, fun m hm => ?_⟩
    simp only [Unb.extPdf, hyy, Unb.normed, if_true, Unb.extPdfHook, Unb.binnedNorm, BPdf.extPdfM]
    rw [show (unbinned b s obs .none norm).b = b from rfl, hy]
    simp only [BPdf.publicNorm]
    rw [hk m hm]
    simp only [M.bind']
    rw [show (unbinned b s obs .none norm).bspace = s from rfl, gather_inside hs d hx]

/-- C111 is violated: with a yield given, the PDF reports it and `ext_integrate` uses it, but `ext_pdf` is that of the binned PDF with
its own yield; if the binned PDF is not extended, `ext_pdf` raises although the PDF is extended. -/
theorem unbinned_given_yield_violated (b : BPdf) (s : BSpace) (hs : s.Proper) (obs norm : Option Box) (y' : Rat) :
    (unbinned b s obs (.given y') norm).yield = some y' ∧
    (∀ (v : Rat) (limits : Box),
      Ends (fun k => (unbinned b s obs (.given y') norm).integrate k limits (some (unbinned b s obs (.given y') norm).norm)) (.ok v) →
      Ends (fun k => (unbinned b s obs (.given y') norm).extIntegrate k limits (some (unbinned b s obs (.given y') norm).norm))
        (.ok (v * y'))) ∧
    (∀ (y : Rat) (d : Arr) (x : String → Rat) (f : String → Nat), b.yield = some y → EndsA b (.extPdf (some b.norm)) (.ok d) →
      (∀ a ∈ s.axes, inBin true a.edges (f a.name) (x a.name)) →
      Ends (fun k => (unbinned b s obs (.given y') norm).extPdf k x (some (unbinned b s obs (.given y') norm).norm))
        (.ok (d (s.axes.map (fun a => f a.name))))) ∧
    (b.yield = none → ∀ x, Ends (fun k => (unbinned b s obs (.given y') norm).extPdf k x
      (some (unbinned b s obs (.given y') norm).norm)) (.error .notExtended)) := by
  have hyy : (unbinned b s obs (.given y') norm).yield = some y' := rfl
  refine ⟨hyy, ?_, ?_, ?_⟩
  · rintro v limits ⟨k, hk⟩
    refine ⟨k, fun m hm => ?_⟩
    have h := hk m hm
    simp only at h
    simp only [Unb.extIntegrate, hyy]
    rw [h]
    rfl
  · rintro y d x f hy ⟨k, hk⟩ hx
    refine ⟨k, fun m hm => ?_⟩
    simp only [Unb.extPdf, hyy, Unb.normed, if_true, Unb.extPdfHook, Unb.binnedNorm, BPdf.extPdfM]
    rw [show (unbinned b s obs (.given y') norm).b = b from rfl, hy]
    simp only [BPdf.publicNorm]
    rw [hk m hm]
    simp only [M.bind']
    rw [show (unbinned b s obs (.given y') norm).bspace = s from rfl, gather_inside hs d hx]
  · intro hb x
    refine ⟨0, fun m _ => ?_⟩
    simp only [Unb.extPdf, hyy, Unb.normed, if_true, Unb.extPdfHook, Unb.binnedNorm, BPdf.extPdfM]
    rw [show (unbinned b s obs (.given y') norm).b = b from rfl, hb]
    rfl

/-! ### Non-vacuity -/

theorem space3_proper : space3.Proper := by
  refine ⟨by decide +kernel, ?_⟩
  intro a ha
  simp only [space3, List.mem_singleton] at ha
  subst ha
  exact ⟨by decide +kernel, by decide⟩

theorem good3 : GoodEdges [0, 1, 2, 3] := ⟨by decide +kernel, by decide⟩

example := unbinned_integral_is_step hist3 space3 none .none none _ rfl (hist3_rel (some [(0, 3)]) (fun b hb => (Option.some.inj hb).symm))
  [(1/2, 5/2)] rfl (by intro a ha; simp [hist3, histogramPdf] at ha; subst ha
                       exact ⟨good3, by norm_num [Meets]⟩)

example : stepIntegral [[0, 1, 2, 3]] (fun i => (if i = [2] then 2 else 1) / 4) [(1/2, 5/2)] = 1/8 + 1/4 + 1/4 := by decide +kernel

example := unbin_bin_roundtrip hist3 space3 none .none none _ rfl (by intro e he; simp [hist3, histogramPdf] at he; subst he; exact good3)
  (hist3_rel none (fun b hb => by cases hb))
  (fun l => rectIntegration ⟨[3], fun i => (if i = [2] then 2 else 1) / 4⟩ [[0, 1, 2, 3]] l)
  (fun l => hist3_integrate l none (fun b hb => by cases hb)) (some 4) [(0, 3)] [(0, 3)] none

example : (unbinned hist3 space3 none .none none).yield = some 4 := by
  simp only [unbinned, hist3, histogramPdf, Ext.yield]
  decide +kernel

end Zfit.Convert
