import Verif.BinPdf.HistModel
import Verif.BinPdf.HookProps
import Mathlib.Tactic.Ring
import Mathlib.Tactic.FieldSimp

/-!
# C34: histogram-like PDFs are normalised
-/

namespace Zfit.BinPdf

open Zfit Zfit.Bin

/-! ## Specification -/

/-- With this norm the relative counts and the density times the area sum to one over all bins, and for an extended pdf the counts
and the extended density times area sum to the yield. -/
def SumsToOne (p : BPdf) (norm : Option Box) : Prop :=
  ∃ rel d, EndsA p (.relCounts norm) (.ok rel) ∧ EndsA p (.pdf norm) (.ok d) ∧ tot p.edges rel = 1 ∧
    tot p.edges (fun i => d i * p.area i) = 1

/-- The same for the counts and the extended density of an extended pdf. -/
def SumsToYield (p : BPdf) (norm : Option Box) (y : Rat) : Prop :=
  ∃ c e, EndsA p (.counts norm) (.ok c) ∧ EndsA p (.extPdf norm) (.ok e) ∧ tot p.edges c = y ∧
    tot p.edges (fun i => e i * p.area i) = y

/-- All bins have a positive size. -/
def PositiveAreas (edges : List (List Rat)) : Prop := ∀ i ∈ allIdx (edges.map (fun e => e.length - 1)), areaOf edges i ≠ 0

/-! ## Lemmas -/

theorem tot_congr {edges : List (List Rat)} {c d : Arr} (h : ∀ i ∈ allIdx (edges.map (fun e => e.length - 1)), c i = d i) :
    tot edges c = tot edges d := by
  unfold tot
  rw [List.map_congr_left h]

theorem tot_add (edges : List (List Rat)) (c d : Arr) : tot edges (fun i => c i + d i) = tot edges c + tot edges d := by
  unfold tot
  induction allIdx (edges.map (fun e => e.length - 1)) with
  | nil => simp
  | cons i l ih => simp only [List.map_cons, List.sum_cons, ih]; ring

theorem tot_mul (edges : List (List Rat)) (c : Arr) (k : Rat) : tot edges (fun i => c i * k) = tot edges c * k := by
  unfold tot
  induction allIdx (edges.map (fun e => e.length - 1)) with
  | nil => simp
  | cons i l ih => simp only [List.map_cons, List.sum_cons, ih]; ring

theorem tot_div (edges : List (List Rat)) (c : Arr) (k : Rat) : tot edges (fun i => c i / k) = tot edges c / k := by
  simp only [div_eq_mul_inv]
  exact tot_mul edges c k⁻¹

theorem tot_zero (edges : List (List Rat)) : tot edges (fun _ => 0) = 0 := by
  unfold tot
  induction allIdx (edges.map (fun e => e.length - 1)) with
  | nil => simp
  | cons i l ih => simp only [List.map_cons, List.sum_cons, ih, add_zero]

theorem tot_density {edges : List (List Rat)} (ha : PositiveAreas edges) (c : Arr) :
    tot edges (fun i => c i / areaOf edges i * areaOf edges i) = tot edges c :=
  tot_congr (fun i hi => div_mul_cancel₀ _ (ha i hi))

theorem rect_div (shape : List Nat) (c : Arr) (edges : List (List Rat)) (n : Box) (k : Rat) :
    rectIntegration ⟨shape, fun i => c i / k⟩ edges n = rectIntegration ⟨shape, c⟩ edges n / k := by
  unfold rectIntegration
  simp only []
  induction allIdx (((edges.zip n).map (fun p => cutAxis p.1 p.2.1 p.2.2)).map (·.size)) with
  | nil => simp
  | cons i l ih =>
    simp only [List.map_cons, List.sum_cons, ih]
    ring

theorem rect_mul (shape : List Nat) (c : Arr) (edges : List (List Rat)) (n : Box) (k : Rat) :
    rectIntegration ⟨shape, fun i => c i * k⟩ edges n = rectIntegration ⟨shape, c⟩ edges n * k := by
  unfold rectIntegration
  simp only []
  induction allIdx (((edges.zip n).map (fun p => cutAxis p.1 p.2.1 p.2.2)).map (·.size)) with
  | nil => simp
  | cons i l ih =>
    simp only [List.map_cons, List.sum_cons, ih]
    ring

/-! ## C34 -/

/-- C34: every histogram with non-zero total is normalised over its space, with any kind of yield. -/
theorem histogram_normalised (edges : List (List Rat)) (values : Arr) (space norm : Box) (ext : Ext)
    (ht : tot edges values ≠ 0) (ha : PositiveAreas edges) :
    SumsToOne (histogramPdf edges values space norm ext) (some space) ∧
    ∀ y, (histogramPdf edges values space norm ext).yield = some y →
      SumsToYield (histogramPdf edges values space norm ext) (some space) y := by
  have harea : (histogramPdf edges values space norm ext).area = areaOf edges := rfl
  refine ⟨⟨_, _, endsA_of (v := .ok (fun i => values i / tot edges values)) 1 (fun m => ?_),
    endsA_of (v := .ok (fun i => values i / tot edges values / areaOf edges i)) 1 (fun m => ?_), ?_, ?_⟩, fun y hy => ?_⟩
  · simp [BPdf.runA, BPdf.stepA, histogramPdf, autoNorm, callHook, suppress, supportsNorm]
  · simp [BPdf.runA, BPdf.stepA, histogramPdf, autoNorm, suppress, supportsNorm]
  · exact (tot_div edges values _).trans (div_self ht)
  · rw [harea]
    exact ((tot_density ha _).trans (tot_div edges values _)).trans (div_self ht)
  · cases ext with
    | no => cases hy
    | auto =>
      obtain rfl : tot edges values = y := Option.some.inj hy
      refine ⟨_, _, endsA_of (v := .ok values) 1 (fun m => ?_),
        endsA_of (v := .ok (fun i => values i / areaOf edges i)) 1 (fun m => ?_), rfl, ?_⟩
      · simp [BPdf.runA, BPdf.stepA, histogramPdf, autoNorm, callHook, suppress, supportsNorm, Ext.ifAuto]
      · simp [BPdf.runA, BPdf.stepA, histogramPdf, autoNorm, callHook, suppress, supportsNorm, Ext.ifAuto]
      · rw [harea]
        exact tot_density ha _
    | given z =>
      obtain rfl : z = y := Option.some.inj hy
      refine ⟨_, _, endsA_of (v := .ok (fun i => values i / tot edges values * z)) 1 (fun m => ?_),
        endsA_of (v := .ok (fun i => values i / tot edges values / areaOf edges i * z)) 2 (fun m => ?_), ?_, ?_⟩
      · simp [BPdf.runA, BPdf.stepA, histogramPdf, autoNorm, callHook, suppress, supportsNorm, Ext.ifAuto, BPdf.timesYield, M.bind',
          BPdf.getYield, Ext.yield]
      · simp [BPdf.runA, BPdf.stepA, histogramPdf, autoNorm, callHook, suppress, supportsNorm, Ext.ifAuto, BPdf.timesYield, M.bind',
          BPdf.getYield, Ext.yield, BPdf.overArea]
      · refine (tot_mul edges _ z).trans ?_
        rw [tot_div, div_self ht, one_mul]
      · rw [harea]
        have : tot edges (fun i => values i / tot edges values / areaOf edges i * z * areaOf edges i) =
            tot edges (fun i => values i / tot edges values * z) :=
          tot_congr (fun i hi => by rw [mul_right_comm, div_mul_cancel₀ _ (ha i hi)])
        refine this.trans ((tot_mul edges _ z).trans ?_)
        rw [tot_div, div_self ht, one_mul]

/-- C34: for another norm range the relative counts and the counts are scaled such that their integral over that range is one and the
yield, respectively. -/
theorem histogram_normalised_over (edges : List (List Rat)) (values : Arr) (space norm n : Box) (ext : Ext) (hn : n ≠ space)
    (hz : rectIntegration ⟨edges.map (fun e => e.length - 1), fun i => values i / tot edges values⟩ edges n ≠ 0) :
    (∃ rel, EndsA (histogramPdf edges values space norm ext) (.relCounts (some n)) (.ok rel) ∧
      rectIntegration ⟨edges.map (fun e => e.length - 1), rel⟩ edges n = 1 ∧
      EndsA (histogramPdf edges values space norm ext) (.pdf (some n)) (.ok (fun i => rel i / areaOf edges i))) := by
  set z := rectIntegration ⟨edges.map (fun e => e.length - 1), fun i => values i / tot edges values⟩ edges n with hzdef
  refine ⟨fun i => values i / tot edges values / z, endsA_of 5 (fun m => ?_), ?_, endsA_of 5 (fun m => ?_)⟩
  · simp [BPdf.runA, BPdf.runN, BPdf.stepA, BPdf.stepN, histogramPdf, autoNorm, callHook, suppress, supportsNorm, hn, M.bind',
      BPdf.rect, BPdf.shape, hzdef]
  · rw [rect_div, ← hzdef, div_self hz]
  · have e : (fun i => values i / tot edges values / z / areaOf edges i) = fun i => values i / tot edges values / areaOf edges i / z := by
      funext i
      rw [div_right_comm]
    rw [e]
    simp [BPdf.runA, BPdf.runN, BPdf.stepA, BPdf.stepN, histogramPdf, autoNorm, callHook, suppress, supportsNorm, hn, M.bind',
      BPdf.rect, BPdf.shape, hzdef]

/-- C34 is violated for the extended density over another norm range: an automatically extended histogram has there the yield *squared*
(times what the counts have): `ext_pdf(norm) = counts(norm) / area * yield`. -/
theorem histogram_ext_pdf_norm_violated (edges : List (List Rat)) (values : Arr) (space norm n : Box) (hn : n ≠ space) :
    ∃ c, EndsA (histogramPdf edges values space norm .auto) (.counts (some n)) (.ok c) ∧
      EndsA (histogramPdf edges values space norm .auto) (.extPdf (some n))
        (.ok (fun i => c i / areaOf edges i * tot edges values)) := by
  set z := rectIntegration ⟨edges.map (fun e => e.length - 1), fun i => values i / tot edges values⟩ edges n with hzdef
  refine ⟨fun i => values i / z, endsA_of 5 (fun m => ?_), endsA_of 6 (fun m => ?_)⟩
  · simp [BPdf.runA, BPdf.runN, BPdf.stepA, BPdf.stepN, histogramPdf, autoNorm, callHook, suppress, supportsNorm, hn, M.bind',
      BPdf.rect, BPdf.shape, hzdef, Ext.ifAuto]
  · have e : (fun i => values i / z / areaOf edges i * tot edges values) =
        fun i => values i / areaOf edges i / (z / tot edges values) := by
      funext i
      rw [div_right_comm, div_div_eq_mul_div, div_mul_eq_mul_div]
    rw [e]
    simp [BPdf.runA, BPdf.runN, BPdf.stepA, BPdf.stepN, histogramPdf, autoNorm, callHook, suppress, supportsNorm, hn, M.bind',
      BPdf.rect, BPdf.shape, hzdef, Ext.ifAuto, BPdf.getYield, Ext.yield]

/-- C34 for templates and any norm: the density is that of the template divided by the part of it inside the norm, also if this is not the norm of the
template. -/
theorem template_density_any_norm (edges : List (List Rat)) (values sysshape : Arr) (space norm other : Box) (ext : Ext) :
    EndsA (templatePdf edges values sysshape space norm ext) (.pdf (some other))
      (.ok (fun i => shaped values sysshape i / tot edges (shaped values sysshape) / areaOf edges i /
        rectIntegration ⟨edges.map (fun e => e.length - 1), fun i => shaped values sysshape i / tot edges (shaped values sysshape)⟩ edges other)) := by
  refine endsA_of 5 (fun m => ?_)
  simp [BPdf.runA, BPdf.runN, BPdf.stepA, BPdf.stepN, templatePdf, autoNorm, callHook, suppress, supportsNorm, M.bind', BPdf.rect, BPdf.shape]

/-- C34 for templates with systematic shapes: normalised whatever the shapes are; here the density is normalised by integrating, so
the norm has to integrate to one (as the space does: `binned_integral_whole`). -/
theorem template_normalised (edges : List (List Rat)) (values sysshape : Arr) (space norm : Box) (ext : Ext)
    (ht : tot edges (shaped values sysshape) ≠ 0) (ha : PositiveAreas edges)
    (hwhole : ∀ c, rectIntegration ⟨edges.map (fun e => e.length - 1), c⟩ edges norm = tot edges c) :
    SumsToOne (templatePdf edges values sysshape space norm ext) (some norm) ∧
    ∀ y, (templatePdf edges values sysshape space norm ext).yield = some y →
      SumsToYield (templatePdf edges values sysshape space norm ext) (some norm) y := by
  have harea : (templatePdf edges values sysshape space norm ext).area = areaOf edges := rfl
  have hone : rectIntegration ⟨edges.map (fun e => e.length - 1),
      fun i => shaped values sysshape i / tot edges (shaped values sysshape)⟩ edges norm = 1 := by
    rw [hwhole, tot_div, div_self ht]
  have hp : EndsA (templatePdf edges values sysshape space norm ext) (.pdf (some norm))
      (.ok (fun i => shaped values sysshape i / tot edges (shaped values sysshape) / areaOf edges i)) := by
    refine endsA_of 5 (fun m => ?_)
    simp [BPdf.runA, BPdf.runN, BPdf.stepA, BPdf.stepN, templatePdf, autoNorm, callHook, suppress, supportsNorm, M.bind',
      BPdf.rect, BPdf.shape, hone]
  refine ⟨⟨_, _, endsA_of (v := .ok (fun i => shaped values sysshape i / tot edges (shaped values sysshape))) 1 (fun m => ?_),
    hp, ?_, ?_⟩, fun y hy => ?_⟩
  · simp [BPdf.runA, BPdf.stepA, templatePdf, autoNorm, callHook, suppress, supportsNorm]
  · exact (tot_div edges _ _).trans (div_self ht)
  · rw [harea]
    exact ((tot_density ha _).trans (tot_div edges _ _)).trans (div_self ht)
  · cases ext with
    | no => cases hy
    | auto =>
      obtain rfl : tot edges (shaped values sysshape) = y := Option.some.inj hy
      refine ⟨_, _, endsA_of (v := .ok (shaped values sysshape)) 1 (fun m => ?_),
        endsA_of (v := .ok (fun i => shaped values sysshape i / areaOf edges i)) 1 (fun m => ?_), rfl, ?_⟩
      · simp [BPdf.runA, BPdf.stepA, templatePdf, autoNorm, callHook, suppress, supportsNorm, Ext.ifAuto]
      · simp [BPdf.runA, BPdf.stepA, templatePdf, autoNorm, callHook, suppress, supportsNorm, Ext.ifAuto]
      · rw [harea]
        exact tot_density ha _
    | given z =>
      obtain rfl : z = y := Option.some.inj hy
      obtain ⟨k, hk⟩ := hp
      have hext : EndsA (templatePdf edges values sysshape space norm (.given z)) (.extPdf (some norm))
          (.ok (fun i => shaped values sysshape i / tot edges (shaped values sysshape) / areaOf edges i * z)) := by
        refine endsA_of (k + 1) (fun m => ?_)
        have h1 := hk (m + k) (Nat.le_add_left _ _)
        rw [show m + (k + 1) = (m + k) + 1 from rfl, BPdf.runA]
        simp only [BPdf.stepA, h1]
        simp [templatePdf, autoNorm, callHook, suppress, supportsNorm, Ext.ifAuto, BPdf.timesYield, M.bind', BPdf.getYield, Ext.yield,
          BPdf.overArea]
      refine ⟨_, _, endsA_of (v := .ok (fun i => shaped values sysshape i / tot edges (shaped values sysshape) * z)) 1 (fun m => ?_),
        hext, ?_, ?_⟩
      · simp [BPdf.runA, BPdf.stepA, templatePdf, autoNorm, callHook, suppress, supportsNorm, Ext.ifAuto, BPdf.timesYield, M.bind',
          BPdf.getYield, Ext.yield]
      · refine (tot_mul edges _ z).trans ?_
        rw [tot_div, div_self ht, one_mul]
      · rw [harea]
        have : tot edges (fun i => shaped values sysshape i / tot edges (shaped values sysshape) / areaOf edges i * z * areaOf edges i) =
            tot edges (fun i => shaped values sysshape i / tot edges (shaped values sysshape) * z) :=
          tot_congr (fun i hi => by rw [mul_right_comm, div_mul_cancel₀ _ (ha i hi)])
        refine this.trans ((tot_mul edges _ z).trans ?_)
        rw [tot_div, div_self ht, one_mul]

/-- C34 for bin-wise modifiers of a pdf that has counts: for all modifiers with non-zero sum of the modified counts. Missing from the full
claim: the cases of `histogram_ext_pdf_norm_violated`, `modified_not_extended_violated`, `sum_extended_violated`,
`sum_yield_ignored_violated`. -/
theorem modified_normalised_partial (edges : List (List Rat)) (baseCounts : Option Box → Except Err Arr) (modifiers : Arr) (space : Box)
    (ext : Ext) (c : Arr) (hc : baseCounts (some space) = .ok c) (ht : tot edges (shaped c modifiers) ≠ 0) (ha : PositiveAreas edges) :
    SumsToOne (modifiedPdf edges baseCounts modifiers space space ext) (some space) ∧
    ∀ y, (modifiedPdf edges baseCounts modifiers space space ext).yield = some y →
      SumsToYield (modifiedPdf edges baseCounts modifiers space space ext) (some space) y := by
  have harea : (modifiedPdf edges baseCounts modifiers space space ext).area = areaOf edges := rfl
  refine ⟨⟨_, _, endsA_of (v := .ok (fun i => shaped c modifiers i / tot edges (shaped c modifiers))) 1 (fun m => ?_),
    endsA_of (v := .ok (fun i => shaped c modifiers i / tot edges (shaped c modifiers) / areaOf edges i)) 2 (fun m => ?_), ?_, ?_⟩,
    fun y hy => ?_⟩
  · simp [BPdf.runA, BPdf.stepA, modifiedPdf, autoNorm, callHook, suppress, supportsNorm, hc, Except.map]
  · simp [BPdf.runA, BPdf.stepA, modifiedPdf, autoNorm, callHook, suppress, supportsNorm, hc, Except.map, BPdf.overArea, M.bind',
      BPdf.area, areaOf]
  · exact (tot_div edges _ _).trans (div_self ht)
  · rw [harea]
    exact ((tot_density ha _).trans (tot_div edges _ _)).trans (div_self ht)
  · cases ext with
    | no => cases hy
    | auto =>
      simp only [modifiedPdf, Ext.yield, hc] at hy
      obtain rfl : tot edges (shaped c modifiers) = y := Option.some.inj hy
      refine ⟨_, _, endsA_of (v := .ok (shaped c modifiers)) 1 (fun m => ?_),
        endsA_of (v := .ok (fun i => shaped c modifiers i / areaOf edges i)) 1 (fun m => ?_), rfl, ?_⟩
      · simp [BPdf.runA, BPdf.stepA, modifiedPdf, autoNorm, callHook, suppress, hc, Except.map]
      · simp [BPdf.runA, BPdf.stepA, modifiedPdf, autoNorm, callHook, suppress, hc, Except.map, BPdf.overArea, M.bind',
          BPdf.area, areaOf]
      · rw [harea]
        exact tot_density ha _
    | given z =>
      obtain rfl : z = y := Option.some.inj hy
      refine ⟨_, _, endsA_of (v := .ok (fun i => shaped c modifiers i / tot edges (shaped c modifiers) * z)) 1 (fun m => ?_),
        endsA_of (v := .ok (fun i => shaped c modifiers i / tot edges (shaped c modifiers) / areaOf edges i * z)) 3 (fun m => ?_), ?_, ?_⟩
      · simp [BPdf.runA, BPdf.stepA, modifiedPdf, autoNorm, callHook, suppress, supportsNorm, hc, Except.map, BPdf.timesYield, M.bind',
          BPdf.getYield, Ext.yield]
      · simp [BPdf.runA, BPdf.stepA, modifiedPdf, autoNorm, callHook, suppress, supportsNorm, hc, Except.map, BPdf.timesYield, M.bind',
          BPdf.getYield, Ext.yield, BPdf.overArea, BPdf.area, areaOf]
      · refine (tot_mul edges _ z).trans ?_
        rw [tot_div, div_self ht, one_mul]
      · rw [harea]
        have : tot edges (fun i => shaped c modifiers i / tot edges (shaped c modifiers) / areaOf edges i * z * areaOf edges i) =
            tot edges (fun i => shaped c modifiers i / tot edges (shaped c modifiers) * z) :=
          tot_congr (fun i hi => by rw [mul_right_comm, div_mul_cancel₀ _ (ha i hi)])
        refine this.trans ((tot_mul edges _ z).trans ?_)
        rw [tot_div, div_self ht, one_mul]

/-- C34: what is normalised is the content times the shape, and the counts of the base times the modifiers, bin by bin. -/
theorem scaled_bin_by_bin (edges : List (List Rat)) (values scale : Arr) (baseCounts : Option Box → Except Err Arr) (space : Box) (ext : Ext)
    (hc : baseCounts (some space) = .ok values) :
    EndsA (templatePdf edges values scale space space ext) (.relCounts (some space))
      (.ok fun i => values i * scale i / tot edges fun j => values j * scale j) ∧
    EndsA (modifiedPdf edges baseCounts scale space space ext) (.relCounts (some space))
      (.ok fun i => values i * scale i / tot edges fun j => values j * scale j) ∧
    EndsA (templatePdf edges values scale space space .auto) (.counts (some space)) (.ok fun i => values i * scale i) ∧
    EndsA (modifiedPdf edges baseCounts scale space space .auto) (.counts (some space)) (.ok fun i => values i * scale i) := by
  refine ⟨endsA_of 1 fun m => ?_, endsA_of 1 fun m => ?_, endsA_of 1 fun m => ?_, endsA_of 1 fun m => ?_⟩
  · simp [BPdf.runA, BPdf.stepA, templatePdf, autoNorm, callHook, suppress, supportsNorm, shaped]
    rfl
  · simp [BPdf.runA, BPdf.stepA, modifiedPdf, autoNorm, callHook, suppress, supportsNorm, hc, Except.map, shaped]
    rfl
  · simp [BPdf.runA, BPdf.stepA, templatePdf, autoNorm, callHook, suppress, supportsNorm, shaped, Ext.ifAuto, Ext.yield]
    rfl
  · simp [BPdf.runA, BPdf.stepA, modifiedPdf, autoNorm, callHook, suppress, supportsNorm, hc, Except.map, shaped, Ext.yield]
    rfl

/-- C34 is violated for bin-wise modifiers of a pdf that is not extended: although the modified pdf is asked for relative counts only,
the counts of the base are needed and the evaluation fails. -/
theorem modified_not_extended_violated (edges : List (List Rat)) (modifiers : Arr) (space : Box) (ext : Ext) :
    EndsA (modifiedPdf edges (fun _ => .error .notExtended) modifiers space space ext) (.relCounts (some space)) (.error .notExtended) := by
  refine endsA_of 1 (fun m => ?_)
  simp [BPdf.runA, BPdf.stepA, modifiedPdf, autoNorm, callHook, suppress, supportsNorm, Except.map]

/-- A component that is normalised over the range and has these relative counts. -/
def Component.Good (edges : List (List Rat)) (space : Box) (c : Component) (rel : Arr) : Prop :=
  c.norm = space ∧ c.relCounts = .ok rel ∧ c.pdf = .ok (fun i => rel i / areaOf edges i) ∧ tot edges rel = 1

theorem sumArrs_tot (edges : List (List Rat)) (as : List (Except Err Arr)) (arrs : List Arr) (fs : List Rat)
    (h : as = arrs.map .ok) (hl : fs.length = arrs.length) :
    ∃ r, sumArrs as fs = .ok r ∧ tot edges r = ((arrs.zip fs).map (fun p => tot edges p.1 * p.2)).sum := by
  subst h
  induction arrs generalizing fs with
  | nil => exact ⟨fun _ => 0, by simp [sumArrs], by simpa using tot_zero edges⟩
  | cons a arrs ih =>
    match fs, hl with
    | f :: fs, hl =>
      obtain ⟨r, hr, ht⟩ := ih fs (by simpa using hl)
      refine ⟨fun i => a i * f + r i, ?_, ?_⟩
      · simp only [List.map_cons, sumArrs, hr]
        rfl
      · rw [tot_add, tot_mul, ht]
        simp

/-- C34: the sum of normalised histograms with fractions that sum to one is normalised. -/
theorem sum_normalised (edges : List (List Rat)) (space : Box) (cs : List Component) (rels : List Arr) (fracs : List Rat)
    (yield : Option Rat) (hgood : List.Forall₂ (Component.Good edges space) cs rels) (hl : fracs.length = cs.length)
    (hf : fracs.sum = 1) (ha : PositiveAreas edges) : SumsToOne (sumPdf edges space cs fracs yield) (some space) := by
  have hrel : cs.map (·.relCounts) = rels.map .ok := by
    clear hl
    induction hgood with
    | nil => rfl
    | cons h _ ih => simp only [List.map_cons, ih, h.2.1]
  have hpdf : cs.map (·.pdf) = (rels.map (fun r => fun i => r i / areaOf edges i)).map .ok := by
    clear hl hrel
    induction hgood with
    | nil => rfl
    | cons h _ ih => simp only [List.map_cons, ih, h.2.2.1]
  have hsup : sumSupports cs space = true := by
    clear hl hrel hpdf
    induction hgood with
    | nil => rfl
    | cons h _ ih =>
      unfold sumSupports at ih ⊢
      rw [List.all_cons, ih, h.1]
      simp
  have hlen : fracs.length = rels.length := hl.trans hgood.length_eq
  have hone : ∀ r ∈ rels, tot edges r = 1 := by
    intro r hr
    clear hrel hpdf hsup hl hlen
    induction hgood with
    | nil => cases hr
    | cons h _ ih =>
      rcases List.mem_cons.1 hr with rfl | hr
      · exact h.2.2.2
      · exact ih hr
  obtain ⟨r, hr, htr⟩ := sumArrs_tot edges _ rels fracs hrel hlen
  obtain ⟨d, hd, htd⟩ := sumArrs_tot edges _ _ fracs hpdf (by simpa using hlen)
  have hsum : ∀ (rs : List Arr) (fs : List Rat), fs.length = rs.length → (∀ r ∈ rs, tot edges r = 1) →
      ((rs.zip fs).map (fun p => tot edges p.1 * p.2)).sum = fs.sum := by
    intro rs
    induction rs with
    | nil => intro fs hlf _; rw [List.length_eq_zero_iff.1 hlf]; rfl
    | cons a rs ih =>
      intro fs hlf h1
      match fs, hlf with
      | f :: fs, hlf =>
        simp only [List.zip_cons_cons, List.map_cons, List.sum_cons]
        rw [ih fs (by simpa using hlf) (fun r hr => h1 r (List.mem_cons_of_mem _ hr)), h1 a List.mem_cons_self, one_mul]
  refine ⟨r, d, endsA_of 1 (fun m => ?_), endsA_of 1 (fun m => ?_), ?_, ?_⟩
  · simp [BPdf.runA, BPdf.stepA, sumPdf, autoNorm, callHook, suppress, supportsNorm, hsup, hr]
  · simp [BPdf.runA, BPdf.stepA, sumPdf, autoNorm, suppress, supportsNorm, hsup, hd]
  · change tot edges r = 1
    rw [htr, hsum rels fracs hlen hone, hf]
  · -- the density times the area: pointwise the relative counts
    change tot edges (fun i => d i * areaOf edges i) = 1
    have hpt : ∀ (rs : List Arr) (fs : List Rat) (d : Arr),
        sumArrs ((rs.map (fun r => fun i => r i / areaOf edges i)).map .ok) fs = .ok d →
        ∃ r, sumArrs (rs.map .ok) fs = .ok r ∧ ∀ i ∈ allIdx (edges.map (fun e => e.length - 1)), d i * areaOf edges i = r i := by
      intro rs
      induction rs with
      | nil =>
        intro fs d hd
        refine ⟨fun _ => 0, by simp [sumArrs], fun i _ => ?_⟩
        simp only [List.map_nil, sumArrs] at hd
        cases hd
        exact zero_mul _
      | cons a rs ih =>
        intro fs d hd
        match fs with
        | [] =>
          refine ⟨fun _ => 0, by simp [sumArrs], fun i _ => ?_⟩
          simp only [List.map_cons, sumArrs] at hd
          cases hd
          exact zero_mul _
        | f :: fs =>
          simp only [List.map_cons, sumArrs] at hd
          rcases hs : sumArrs ((rs.map (fun r => fun i => r i / areaOf edges i)).map .ok) fs with e | d'
          · rw [hs] at hd
            cases hd
          · obtain ⟨r', hr', hri⟩ := ih fs d' hs
            rw [hs] at hd
            cases hd
            refine ⟨fun i => a i * f + r' i, ?_, fun i hi => ?_⟩
            · simp only [List.map_cons, sumArrs, hr']
              rfl
            · change (a i / areaOf edges i * f + d' i) * areaOf edges i = a i * f + r' i
              rw [← hri i hi, add_mul, mul_right_comm, div_mul_cancel₀ _ (ha i hi)]
    rw [hpdf] at hd
    obtain ⟨r', hr', hri⟩ := hpt rels fracs d hd
    rw [hrel, hr'] at hr
    cases hr
    rw [tot_congr hri, htr, hsum rels fracs hlen hone, hf]

/-- C34: the counts of a sum of extended pdfs are the sum of the components' counts, whatever yield the sum was given. Missing from the full
claim: the cases of `histogram_ext_pdf_norm_violated`, `modified_not_extended_violated`, `sum_extended_violated`,
`sum_yield_ignored_violated`. -/
theorem sum_counts_partial (edges : List (List Rat)) (space : Box) (cs : List Component) (counts : List Arr) (fracs : List Rat)
    (yield : Option Rat) (hnorm : ∀ c ∈ cs, c.norm = space) (hcounts : cs.map (·.counts) = counts.map .ok) :
    ∃ c, EndsA (sumPdf edges space cs fracs yield) (.counts (some space)) (.ok c) ∧
      tot edges c = (counts.map (tot edges)).sum := by
  have hsup : sumSupports cs space = true := by
    unfold sumSupports
    rw [List.all_eq_true]
    intro c hc
    simp [hnorm c hc]
  have hlen : cs.length = counts.length := by simpa using congrArg List.length hcounts
  obtain ⟨r, hr, ht⟩ := sumArrs_tot edges _ counts (cs.map (fun _ => 1)) hcounts (by simpa using hlen)
  refine ⟨r, endsA_of 1 (fun m => ?_), ?_⟩
  · rw [List.map_const'] at hr
    simp [BPdf.runA, BPdf.stepA, sumPdf, autoNorm, callHook, suppress, supportsNorm, hsup, hr]
  · rw [ht]
    have : ∀ (as : List Arr) (l : List Component), l.length = as.length →
        ((as.zip (l.map (fun _ => (1 : Rat)))).map (fun p => tot edges p.1 * p.2)).sum = (as.map (tot edges)).sum := by
      intro as
      induction as with
      | nil => intro l _; simp
      | cons a as ih =>
        intro l hl
        match l, hl with
        | b :: l, hl =>
          simp only [List.map_cons, List.zip_cons_cons, List.sum_cons]
          rw [ih l (by simpa using hl), mul_one]
    exact this counts cs hlen

theorem sumArrs_pointwise (as : List (Except Err Arr)) (arrs : List Arr) (fs : List Rat)
    (h : as = arrs.map .ok) (hl : fs.length = arrs.length) :
    ∃ r, sumArrs as fs = .ok r ∧ ∀ i, r i = ((arrs.zip fs).map (fun p => p.1 i * p.2)).sum := by
  subst h
  induction arrs generalizing fs with
  | nil => exact ⟨fun _ => 0, by simp [sumArrs], by simp⟩
  | cons a arrs ih =>
    match fs, hl with
    | f :: fs, hl =>
      obtain ⟨r, hr, ht⟩ := ih fs (by simpa using hl)
      refine ⟨fun i => a i * f + r i, ?_, fun i => ?_⟩
      · simp only [List.map_cons, sumArrs, hr]
        rfl
      · simp [ht i]

theorem sum_zip_ones (as : List Arr) (l : List Component) (hl : l.length = as.length) (i : List Nat) :
    ((as.zip (l.map (fun _ => (1 : Rat)))).map (fun p => p.1 i * p.2)).sum = (as.map (· i)).sum := by
  induction as generalizing l with
  | nil => simp
  | cons a as ih =>
    match l, hl with
    | b :: l, hl =>
      simp only [List.map_cons, List.zip_cons_cons, List.sum_cons]
      rw [ih l (by simpa using hl), mul_one]

/-- C34, in part: bin by bin, counts and extended density of a sum of extended pdfs are the sums of those of its components. Missing from the
full claim: as for `sum_counts_partial`. -/
theorem sum_extended_bins_partial (edges : List (List Rat)) (space : Box) (cs : List Component) (counts exts : List Arr) (fracs : List Rat)
    (yield : Option Rat) (hnorm : ∀ c ∈ cs, c.norm = space) (hcounts : cs.map (·.counts) = counts.map .ok)
    (hexts : cs.map (·.extPdf) = exts.map .ok) :
    ∃ c e, EndsA (sumPdf edges space cs fracs yield) (.counts (some space)) (.ok c) ∧
      EndsA (sumPdf edges space cs fracs yield) (.extPdf (some space)) (.ok e) ∧
      (∀ i, c i = (counts.map (· i)).sum) ∧ ∀ i, e i = (exts.map (· i)).sum := by
  have hsup : sumSupports cs space = true := by
    unfold sumSupports
    rw [List.all_eq_true]
    intro c hc
    simp [hnorm c hc]
  have hlen : cs.length = counts.length := by simpa using congrArg List.length hcounts
  have hlen' : cs.length = exts.length := by simpa using congrArg List.length hexts
  obtain ⟨r, hr, ht⟩ := sumArrs_pointwise _ counts (cs.map (fun _ => 1)) hcounts (by simpa using hlen)
  obtain ⟨e, he, hte⟩ := sumArrs_pointwise _ exts (cs.map (fun _ => 1)) hexts (by simpa using hlen')
  refine ⟨r, e, endsA_of 1 (fun m => ?_), endsA_of 1 (fun m => ?_), fun i => ?_, fun i => ?_⟩
  · rw [List.map_const'] at hr
    simp [BPdf.runA, BPdf.stepA, sumPdf, autoNorm, callHook, suppress, supportsNorm, hsup, hr]
  · rw [List.map_const'] at he
    simp [BPdf.runA, BPdf.stepA, sumPdf, autoNorm, callHook, suppress, supportsNorm, hsup, he]
  · rw [ht i, sum_zip_ones counts cs hlen i]
  · rw [hte i, sum_zip_ones exts cs hlen' i]

/-- C34 is violated: a sum of not extended pdfs that is itself extended, a normal way to build a fit model, has neither counts nor an
extended density: both raise "not extended". -/
theorem sum_extended_violated (edges : List (List Rat)) (space : Box) (c : Component) (cs : List Component) (fracs : List Rat)
    (y : Rat) (hnorm : ∀ b ∈ c :: cs, b.norm = space) (h1 : c.counts = .error .notExtended) (h2 : c.extPdf = .error .notExtended) :
    EndsA (sumPdf edges space (c :: cs) fracs (some y)) (.counts (some space)) (.error .notExtended) ∧
    EndsA (sumPdf edges space (c :: cs) fracs (some y)) (.extPdf (some space)) (.error .notExtended) := by
  have hsup : sumSupports (c :: cs) space = true := by
    unfold sumSupports
    rw [List.all_eq_true]
    intro b hb
    simp [hnorm b hb]
  constructor
  · refine endsA_of 1 (fun m => ?_)
    simp [BPdf.runA, BPdf.stepA, sumPdf, autoNorm, callHook, suppress, supportsNorm, hsup, sumArrs, h1]
    rfl
  · refine endsA_of 1 (fun m => ?_)
    simp [BPdf.runA, BPdf.stepA, sumPdf, autoNorm, callHook, suppress, supportsNorm, hsup, sumArrs, h2]
    rfl

/-- C34 is violated: a sum of two extended pdfs (yields 3 and 4) that is given the yield 100 still has 7 counts. -/
theorem sum_yield_ignored_violated :
    let comp (n : Rat) : Component := ⟨[(0, 2)], .ok (fun _ => 1/2), .ok (fun _ => n/2), .ok (fun _ => n/2), .ok (fun _ => 1/2)⟩
    let p := sumPdf [[0, 1, 2]] [(0, 2)] [comp 3, comp 4] [3/7, 4/7] (some 100)
    p.yield = some 100 ∧ (p.countsM 5 none).map (fun r => r.toOption.map (tot p.edges)) = some (some 7) := by
  decide +kernel

/-- non-vacuity: two bins of different size; all hypotheses are met -/
example : tot [[0, 1, 3]] (fun i => if i = [0] then 1 else 4) = 5 := by decide +kernel

example : PositiveAreas [[0, 1, 3], [0, 2]] := by
  unfold PositiveAreas
  decide +kernel

example : ((histogramPdf [[0, 1, 3]] (fun i => if i = [0] then 1 else 4) [(0, 3)] [(0, 3)] .auto).runA 5 (.extPdf (some [(0, 1)]))).map
    (fun r => r.toOption.map (fun c => (c [0], c [1]))) = some (some (25, 50)) := by decide +kernel

end Zfit.BinPdf
