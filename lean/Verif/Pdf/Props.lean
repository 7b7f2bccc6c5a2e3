import Verif.Pdf.Lemmas
import Mathlib.Tactic.Linarith
import Mathlib.Tactic.NormNum

/-! C30, C31, C32: the public methods of a PDF agree with each other, whichever methods are overridden. -/

namespace Zfit.Pdf

open Zfit

variable {X P : Type} {μ : P → ℝ} {f : X → ℝ} {m : Impl X P}

/-! ### C30 -/

/-- C30: the integral over any number of pieces, normalised or not, whatever is overridden. -/
theorem integrate_value (hm : Honest m f μ) (hpos : m.logPdf = none ∨ ∀ x, 0 < f x) (limits : List P) :
    m.integral limits .falseSpace = .ok (total μ limits) ∧
    ∀ n, 0 < total μ n → m.integral limits (.range n) = .ok (total μ limits / total μ n) :=
  ⟨integral_ok hm hpos (norm := .falseSpace) trivial limits, fun n hn => integral_ok hm hpos (norm := .range n) hn limits⟩

/-- C30: additive over the pieces, and the pieces can be given in one call or one by one. -/
theorem integrate_additive (hm : Honest m f μ) (hpos : m.logPdf = none ∨ ∀ x, 0 < f x) (a b n : List P)
    (hn : 0 < total μ n) :
    ∃ va vb, m.integral a (.range n) = .ok va ∧ m.integral b (.range n) = .ok vb ∧
      m.integral (a ++ b) (.range n) = .ok (va + vb) := by
  refine ⟨_, _, (integrate_value hm hpos a).2 n hn, (integrate_value hm hpos b).2 n hn, ?_⟩
  rw [(integrate_value hm hpos (a ++ b)).2 n hn, total_append, add_div]

/-- C30: the integral over the normalisation range is one. -/
theorem integrate_norm_is_one (hm : Honest m f μ) (hpos : m.logPdf = none ∨ ∀ x, 0 < f x) (n : List P)
    (hn : 0 < total μ n) : m.integral n (.range n) = .ok 1 := by
  rw [(integrate_value hm hpos n).2 n hn, div_self hn.ne']

theorem callPdf_ans (hm : Honest m f μ) (hpos : m.logPdf = none ∨ ∀ x, 0 < f x) {norm : Norm P} (hg : norm.Good μ)
    (hnp : norm ≠ .pyFalse) (x : X) :
    Ans (OrNorm Never norm) (m.callPdf x norm) (density f μ x norm) := by
  have hlog : Ans (OrNorm NotImpl norm) ((callN m.logPdf x norm).map Real.exp) (density f μ x norm) := by
    cases hl : m.logPdf with
    | none => exact .inr ⟨_, rfl, .inl rfl⟩
    | some h =>
      have hp : 0 < f x := by
        rcases hpos with hx | hx
        · rw [hl] at hx; cases hx
        · exact hx x
      have hd : 0 < density f μ x norm := by
        cases norm with
        | range n => exact div_pos hp hg
        | falseSpace => exact hp
        | pyFalse => exact hp
      have := callN_ans (h := m.logPdf) (a := x) (norm := norm) (B := NotImpl) (μ := μ)
        (v := fun norm => Real.log (density f μ x norm)) rfl rfl (fun h' hh norm hg => hm.logPdf h' hh x norm hp hg) hg
      rw [← hl]
      rcases this with h | ⟨e, h, he⟩
      · rw [h]; left; simp [Except.map, Real.exp_log hd]
      · rw [h]; exact .inr ⟨e, rfl, he⟩
  have hpdf : Ans (OrNorm NotImpl norm) (callN m.pdf x norm) (density f μ x norm) :=
    callN_ans (h := m.pdf) (a := x) (norm := norm) (B := NotImpl) (μ := μ) (v := fun norm => density f μ x norm)
      rfl rfl (fun h' hh norm hg => hm.pdf h' hh x norm hg) hg
  have hcatch : ∀ e, OrNorm NotImpl norm e → isFNI e = true ∨ OrNorm Never norm e := by
    rintro e (he | he)
    · exact .inl (isFNI_iff.2 he)
    · exact .inr (.inr he)
  unfold Impl.callPdf Impl.callPdfWith
  rcases hm.complete with hc | ⟨h, hh, hc⟩
  · refine suppress_ans hpdf (suppress_ans hlog (C := OrNorm Never norm) (B := OrNorm Never norm) ?_ hcatch (fun e he => he))
      hcatch (fun e he => he)
    have hfb : Ans (OrNorm Never norm) (m.fallbackPdf m.normalizationOver x norm) (density f μ x norm) := by
      left; unfold Impl.fallbackPdf; rw [hc]
      cases norm with
      | range n => simp only [except_bind_ok]; rw [normalizationOver_ok hm hpos hg]; rfl
      | falseSpace => rfl
      | pyFalse => exact absurd rfl hnp
    unfold Impl.pdfFromExt
    cases hy : m.yield with
    | none => exact hfb
    | some y =>
      refine suppress_ans (A := OrNorm NotImpl norm) ?_ hfb hcatch (fun e he => he)
      have := callN_ans (h := m.extPdf) (a := x) (norm := norm) (B := NotImpl) (μ := μ)
        (v := fun norm => y * density f μ x norm) rfl rfl (fun h' hh norm hg => hm.extPdf h' y hh hy x norm hg) hg
      rcases this with h | ⟨e, h, he⟩
      · rw [h]; left
        simp only [Except.map]
        rw [mul_div_cancel_left₀ _ (hm.yield y hy)]
      · rw [h]; exact .inr ⟨e, rfl, he⟩
  · have himpl : Ans (OrNorm Never norm) (callN m.pdf x norm) (density f μ x norm) := by
      rw [hh]
      exact NHook.call_ans (v := density f μ x) rfl (fun norm hg hpass => .inl (hc x norm hg hpass)) hg
    unfold suppress
    rcases himpl with h | ⟨e, h, he⟩
    · rw [h]; exact .inl rfl
    · rw [h]
      rcases he with he | ⟨rfl, he⟩
      · exact he.elim
      · simp only
        rw [if_neg (by decide)]
        exact .inr ⟨_, rfl, .inr ⟨rfl, he⟩⟩

/-- C30: the normalised density is the unnormalised one divided by the integral over the range, whatever is
overridden. -/
theorem pdf_value (hm : Honest m f μ) (hpos : m.logPdf = none ∨ ∀ x, 0 < f x) (x : X) :
    m.evalPdf x .falseSpace = .ok (f x) ∧
    ∀ n, 0 < total μ n → m.evalPdf x (.range n) = .ok (f x / total μ n) := by
  have hfalse : m.callPdf x .falseSpace = .ok (f x) := by
    rcases callPdf_ans hm hpos (norm := .falseSpace) trivial (by simp) x with h | ⟨e, _, he | ⟨_, n, he⟩⟩
    · exact h
    · exact he.elim
    · cases he
  constructor
  · unfold Impl.evalPdf; rw [hfalse]
  · intro n hn
    unfold Impl.evalPdf
    rcases callPdf_ans hm hpos (norm := .range n) hn (by simp) x with h | ⟨e, h, he | ⟨rfl, _⟩⟩
    · rw [h]; rfl
    · exact he.elim
    · rw [h]
      simp only
      rw [hfalse, except_bind_ok, normalizationOver_ok hm hpos hn]
      rfl

/-- C30, in terms of the public methods only. -/
theorem pdf_is_normalised_by_integral (hm : Honest m f μ) (hpos : m.logPdf = none ∨ ∀ x, 0 < f x) (x : X) (n : List P)
    (hn : 0 < total μ n) :
    ∃ u t, m.evalPdf x .falseSpace = .ok u ∧ m.integral n .falseSpace = .ok t ∧ m.evalPdf x (.range n) = .ok (u / t) :=
  ⟨_, _, (pdf_value hm hpos x).1, (integrate_value hm hpos n).1, (pdf_value hm hpos x).2 n hn⟩

/-! ### C32: the extended versions -/

/-- C32: `ext_pdf` is the density times the yield and `ext_integrate` the integral times the yield. -/
theorem extended_scales (hm : Honest m f μ) (hpos : m.logPdf = none ∨ ∀ x, 0 < f x) (y : ℝ) (hy : m.yield = some y)
    (x : X) (limits n : List P) (hn : 0 < total μ n) :
    m.evalExtPdf x (.range n) = .ok (f x / total μ n * y) ∧
    m.extIntegral limits (.range n) = .ok (total μ limits / total μ n * y) := by
  constructor
  · unfold Impl.evalExtPdf
    rw [hy]
    simp only
    rw [(pdf_value hm hpos x).2 n hn]
    apply Ans.ok
    have hext : ∀ norm : Norm P, norm.Good μ →
        Ans (OrNorm NotImpl norm) (callN m.extPdf x norm) (y * density f μ x norm) := fun norm hg =>
      callN_ans (h := m.extPdf) (a := x) (norm := norm) (B := NotImpl) (μ := μ)
        (v := fun norm => y * density f μ x norm) rfl rfl (fun h' hh norm hg => hm.extPdf h' y hh hy x norm hg) hg
    have hauto : Ans NotImpl (m.autoExtPdf x (.range n)) (f x / total μ n * y) := by
      unfold Impl.autoExtPdf
      rcases hext (.range n) hn with h | ⟨e, h, he | ⟨rfl, _⟩⟩
      · rw [h]; left; simp only [density, mul_comm]
      · rw [h, he]; exact .inr ⟨_, rfl, rfl⟩
      · rw [h]
        simp only
        rcases hext .pyFalse trivial with h' | ⟨e, h', he⟩
        · rw [h', except_bind_ok, normalizationOver_ok hm hpos hn]
          left
          simp only [except_bind_ok, except_pure, density]
          congr 1
          ring
        · rw [h']
          exact .inr ⟨e, rfl, orNorm_pyFalse he⟩
    refine suppress_ans hauto (C := Never) (.inl rfl) (fun e he => .inl (isFNI_iff.2 he)) (fun e he => he)
  · unfold Impl.extIntegral
    rw [hy]
    simp only
    rw [(integrate_value hm hpos limits).2 n hn]
    rfl

/-- C32: without a yield both raise `NotExtendedPDFError`. -/
theorem not_extended_raises (hy : m.yield = none) (x : X) (limits : List P) (norm : Norm P) :
    m.evalExtPdf x norm = .error .notExtended ∧ m.extIntegral limits norm = .error .notExtended := by
  unfold Impl.evalExtPdf Impl.extIntegral
  rw [hy]
  exact ⟨rfl, rfl⟩

/-! ### C31 -/

/-- C31, in part: `log_pdf` is the logarithm of `pdf` where the density is positive, if `_log_pdf` and `_pdf` are not
overridden or their decorator accepts the normalisation range.  Missing: overridden with `supports()`, see below. -/
theorem log_pdf_value_partial (hm : Honest m f μ) (hpos : ∀ x, 0 < f x) (x : X) (n : List P) (hn : 0 < total μ n)
    (hl : ∀ h, m.logPdf = some h → h.all = true ∨ h.norms n = true)
    (hp : ∀ h, m.pdf = some h → h.all = true ∨ h.norms n = true) :
    ∃ v, m.evalPdf x (.range n) = .ok v ∧ m.evalLogPdf x (.range n) = .ok (Real.log v) := by
  refine ⟨_, (pdf_value hm (.inr hpos) x).2 n hn, ?_⟩
  have h1 : Ans NotImpl (callN m.logPdf x (.range n)) (Real.log (f x / total μ n)) := by
    cases hh : m.logPdf with
    | none => exact .inr ⟨_, rfl, rfl⟩
    | some h =>
      unfold callN NHook.call
      simp only
      rw [if_pos (by simpa using hl h hh)]
      exact hm.logPdf h hh x (.range n) (hpos x) hn (hl h hh)
  have h2 : Ans NotImpl ((callN m.pdf x (.range n)).map Real.log) (Real.log (f x / total μ n)) := by
    cases hh : m.pdf with
    | none => exact .inr ⟨_, rfl, rfl⟩
    | some h =>
      unfold callN NHook.call
      simp only
      rw [if_pos (by simpa using hp h hh)]
      rcases hm.pdf h hh x (.range n) hn (hp h hh) with hr | ⟨e, hr, he⟩
      · rw [hr]; exact .inl rfl
      · rw [hr]; exact .inr ⟨e, rfl, he⟩
  have hcatch : ∀ e, NotImpl e → isFNI e = true ∨ Never e := fun e he => .inl (isFNI_iff.2 he)
  have : m.callLogPdf x (.range n) = .ok (Real.log (f x / total μ n)) := by
    apply Ans.ok
    unfold Impl.callLogPdf
    refine suppress_ans h1 (suppress_ans h2 (C := Never) (B := Never) ?_ hcatch (fun e he => he)) hcatch (fun e he => he)
    rw [(pdf_value hm (.inr hpos) x).2 n hn]
    exact .inl rfl
  unfold Impl.evalLogPdf
  rw [this]

/-- C31 is violated for every PDF that overrides `_pdf` with a decorator that does not accept the normalisation range
(`@supports()`), and does not override `_log_pdf`: the logarithm of the unnormalised density minus the *integral*
(instead of its logarithm) is returned, which is never the right value. -/
theorem log_pdf_violated (hm : Honest m f μ) (hpos : ∀ x, 0 < f x) (x : X) (n : List P) (hn : 0 < total μ n)
    (hl : m.logPdf = none) (h : NHook X P) (hp : m.pdf = some h) (hall : h.all = false) (hnorm : h.norms n = false)
    (hans : h.impl x .pyFalse = .ok (f x)) :
    m.evalLogPdf x (.range n) = .ok (Real.log (f x) - total μ n) ∧
    ∀ v, m.evalPdf x (.range n) = .ok v → m.evalLogPdf x (.range n) ≠ .ok (Real.log v) := by
  have key : m.evalLogPdf x (.range n) = .ok (Real.log (f x) - total μ n) := by
    have h1 : m.callLogPdf x (.range n) = .error .normNotImplemented := by
      unfold Impl.callLogPdf
      rw [hl, hp]
      simp [callN, NHook.call, suppress, isFNI, hall, hnorm, Except.map]
    have h2 : m.callLogPdf x .pyFalse = .ok (Real.log (f x)) := by
      unfold Impl.callLogPdf
      rw [hl, hp]
      simp [callN, NHook.call, suppress, isFNI, hans, Except.map]
    unfold Impl.evalLogPdf
    rw [h1]
    simp only
    rw [h2, except_bind_ok]
    unfold Impl.logNormalization
    rw [normalizationOver_ok hm (.inr hpos) hn]
    rfl
  refine ⟨key, ?_⟩
  intro v hv
  rw [(pdf_value hm (.inr hpos) x).2 n hn] at hv
  cases hv
  rw [key, Real.log_div (hpos x).ne' hn.ne']
  intro h
  have := Except.ok.inj h
  have hlt : Real.log (total μ n) < total μ n := by
    have := Real.log_le_sub_one_of_pos hn
    linarith
  linarith

/-! ### Non-vacuity: a flat density 3 on pieces that are intervals, with different methods overridden. -/

/-- only `_unnormalized_pdf` -/
def exPlain : Impl ℝ (ℝ × ℝ) where
  pdf := none
  logPdf := none
  extPdf := none
  yield := some 5
  unnorm := some (fun _ => .ok 3)
  normalization := none
  integrate := none
  analytic := none
  registered := fun _ => none
  numeric := none
  numInt := fun _ limits => .ok (total (fun p => 3 * (p.2 - p.1)) limits)

/-- `_pdf` with `@supports()` and an analytic integral for a single piece -/
def exPdf : Impl ℝ (ℝ × ℝ) :=
  { exPlain with
    pdf := some ⟨fun _ => false, false, fun _ _ => .ok 3⟩
    registered := fun _ => some ⟨⟨fun _ => false, false, fun limits _ => .ok (total (fun p => 3 * (p.2 - p.1)) limits)⟩, false⟩ }

theorem exPlain_honest : Honest exPlain (fun _ => 3) (fun p => 3 * (p.2 - p.1)) where
  pdf := by intro h hh; cases hh
  logPdf := by intro h hh; cases hh
  extPdf := by intro h y hh; cases hh
  yield := by rintro y hy; cases hy; norm_num
  complete := .inl (fun _ => rfl)
  normalization := by intro h hh; cases hh
  integrate := by intro h hh; cases hh
  analytic := by intro h hh; cases hh
  registered := by intro l h hh; cases hh
  numeric := by intro h hh; cases hh
  numInt := fun _ _ _ => .inl rfl

example : exPlain.evalPdf 1 (.range [(0, 2)]) = .ok (1 / 2) := by
  rw [(pdf_value exPlain_honest (.inl rfl) 1).2 [(0, 2)] (by norm_num [total])]
  norm_num [total]

example : exPlain.integral [(0, 1), (2, 4)] (.range [(0, 2)]) = .ok (3 / 2) := by
  rw [(integrate_value exPlain_honest (.inl rfl) _).2 [(0, 2)] (by norm_num [total])]
  norm_num [total]

example : exPlain.evalExtPdf 1 (.range [(0, 2)]) = .ok (5 / 2) := by
  rw [(extended_scales exPlain_honest (.inl rfl) 5 rfl 1 [] [(0, 2)] (by norm_num [total])).1]
  norm_num [total]

theorem exPdf_honest : Honest exPdf (fun _ => 3) (fun p => 3 * (p.2 - p.1)) where
  pdf := by
    rintro h hh x norm - hp
    cases hh
    cases norm with
    | range n => rcases hp with hp | hp <;> cases hp
    | falseSpace => cases hp
    | pyFalse => exact .inl rfl
  logPdf := by intro h hh; cases hh
  extPdf := by intro h y hh; cases hh
  yield := by rintro y hy; cases hy; norm_num
  complete := .inl (fun _ => rfl)
  normalization := by intro h hh; cases hh
  integrate := by intro h hh; cases hh
  analytic := by intro h hh; cases hh
  registered := by
    rintro l h hh norm - hp
    cases hh
    cases norm with
    | range n => rcases hp with hp | hp <;> cases hp
    | falseSpace => cases hp
    | pyFalse => exact .inl rfl
  numeric := by intro h hh; cases hh
  numInt := fun _ _ _ => .inl rfl

example : exPdf.integral [(0, 1), (2, 4)] (.range [(0, 2)]) = .ok (3 / 2) := by
  rw [(integrate_value exPdf_honest (.inl rfl) _).2 [(0, 2)] (by norm_num [total])]
  norm_num [total]

/-- The violating PDF exists: a flat `_pdf` with `@supports()`. -/
example : exPdf.evalLogPdf 1 (.range [(0, 2)]) = .ok (Real.log 3 - 6) := by
  rw [(log_pdf_violated exPdf_honest (fun _ => by norm_num) 1 [(0, 2)] (by norm_num [total]) rfl _ rfl rfl rfl rfl).1]
  norm_num [total]

/-- and log_pdf is right if `_pdf` is not overridden -/
example : exPlain.evalLogPdf 1 (.range [(0, 2)]) = .ok (Real.log (1 / 2)) := by
  obtain ⟨v, h1, h2⟩ := log_pdf_value_partial exPlain_honest (fun _ => by norm_num) 1 [(0, 2)] (by norm_num [total])
    (by intro h hh; cases hh) (by intro h hh; cases hh)
  rw [(pdf_value exPlain_honest (.inl rfl) 1).2 [(0, 2)] (by norm_num [total])] at h1
  cases h1
  rw [h2]; norm_num [total]

end Zfit.Pdf
