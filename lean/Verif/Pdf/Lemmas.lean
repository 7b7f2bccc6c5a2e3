import Verif.Pdf.Spec

namespace Zfit.Pdf

open Zfit

variable {X P : Type} {μ : P → ℝ} {f : X → ℝ}

/-- the exceptions a decorated method with a `norm` may raise besides those in `A` -/
def OrNorm (A : Err → Prop) (norm : Norm P) (e : Err) : Prop :=
  A e ∨ (e = .normNotImplemented ∧ ∃ n, norm = .range n)

/-- ... and one with limits -/
def OrMulti (A : Err → Prop) (limits : List P) (e : Err) : Prop :=
  A e ∨ (e = .multipleLimitsNotImplemented ∧ limits.length > 1)

theorem Ans.mono {A B : Err → Prop} {r : Except Err ℝ} {v : ℝ} (h : Ans A r v) (hAB : ∀ e, A e → B e) : Ans B r v := by
  rcases h with h | ⟨e, h, he⟩
  · exact .inl h
  · exact .inr ⟨e, h, hAB e he⟩

theorem total_append (a b : List P) : total μ (a ++ b) = total μ a + total μ b := by simp [total]

theorem total_single (p : P) : total μ [p] = μ p := by simp [total]

theorem integralOf_pieces (limits : List P) (norm : Norm P) :
    (limits.map (fun p => integralOf μ [p] norm)).sum = integralOf μ limits norm := by
  cases norm with
  | range n =>
    simp only [integralOf, total_single]
    unfold total
    induction limits with
    | nil => simp
    | cons a l ih => simp [ih, add_div]
  | falseSpace => simp [integralOf, total]
  | pyFalse => simp [integralOf, total]

theorem NHook.call_ans {A : Type} {h : NHook A P} {a : A} {norm : Norm P} {B : Err → Prop} {v : Norm P → ℝ}
    (hv : v .falseSpace = v .pyFalse)
    (himpl : ∀ norm, norm.Good μ → h.Passes norm → Ans B (h.impl a norm) (v norm)) (hg : norm.Good μ) :
    Ans (OrNorm B norm) (h.call a norm) (v norm) := by
  cases norm with
  | range n =>
    unfold NHook.call
    simp only
    split
    · rename_i hc
      exact (himpl _ hg (by simpa [NHook.Passes] using hc)).mono (fun e he => .inl he)
    · exact .inr ⟨_, rfl, .inr ⟨rfl, n, rfl⟩⟩
  | falseSpace =>
    unfold NHook.call
    simp only
    split
    · rename_i hc
      exact (himpl _ hg hc).mono (fun e he => .inl he)
    · rw [hv]; exact (himpl .pyFalse trivial trivial).mono (fun e he => .inl he)
  | pyFalse => exact (himpl _ hg trivial).mono (fun e he => .inl he)

theorem callN_ans {A : Type} {h : Option (NHook A P)} {a : A} {norm : Norm P} {B : Err → Prop} {v : Norm P → ℝ}
    (hv : v .falseSpace = v .pyFalse) (hB : B .functionNotImplemented)
    (himpl : ∀ h', h = some h' → ∀ norm, norm.Good μ → h'.Passes norm → Ans B (h'.impl a norm) (v norm)) (hg : norm.Good μ) :
    Ans (OrNorm B norm) (callN h a norm) (v norm) := by
  cases h with
  | none => exact .inr ⟨_, rfl, .inl hB⟩
  | some h => exact NHook.call_ans hv (himpl h rfl) hg

theorem LHook.call_ans {h : LHook P} {limits : List P} {norm : Norm P} {B : Err → Prop}
    (himpl : ∀ norm, norm.Good μ → h.Passes norm → Ans B (h.impl limits norm) (integralOf μ limits norm)) (hg : norm.Good μ) :
    Ans (OrMulti (OrNorm B norm) limits) (h.call limits norm) (integralOf μ limits norm) := by
  unfold LHook.call
  split
  · rename_i hc
    simp only [Bool.and_eq_true, decide_eq_true_eq] at hc
    exact .inr ⟨_, rfl, .inr ⟨rfl, hc.2⟩⟩
  · exact (NHook.call_ans (v := integralOf μ limits) rfl himpl hg).mono (fun e he => .inl he)

theorem callL_ans {h : Option (LHook P)} {limits : List P} {norm : Norm P} {B : Err → Prop}
    (hB : B .functionNotImplemented)
    (himpl : ∀ h', h = some h' → ∀ norm, norm.Good μ → h'.Passes norm → Ans B (h'.impl limits norm) (integralOf μ limits norm))
    (hg : norm.Good μ) :
    Ans (OrMulti (OrNorm B norm) limits) (callL h limits norm) (integralOf μ limits norm) := by
  cases h with
  | none => exact .inr ⟨_, rfl, .inl (.inl hB)⟩
  | some h => exact LHook.call_ans (himpl h rfl) hg

/-- `suppress`: the first answer, or else the second. -/
theorem suppress_ans {A B C : Err → Prop} {catches : Err → Bool} {r s : Except Err ℝ} {v : ℝ}
    (hr : Ans A r v) (hs : Ans C s v) (hA : ∀ e, A e → catches e = true ∨ B e) (hC : ∀ e, C e → B e) :
    Ans B (suppress catches r s) v := by
  rcases hr with rfl | ⟨e, rfl, he⟩
  · exact .inl rfl
  · unfold suppress
    simp only
    split
    · exact hs.mono hC
    · rename_i hc
      rcases hA e he with h | h
      · exact absurd h hc
      · exact .inr ⟨e, rfl, h⟩

theorem mapM_ans {α : Type} {A : Err → Prop} (g : α → Except Err ℝ) (v : α → ℝ) (l : List α)
    (h : ∀ a ∈ l, Ans A (g a) (v a)) :
    l.mapM g = .ok (l.map v) ∨ ∃ e, l.mapM g = .error e ∧ A e := by
  induction l with
  | nil => exact .inl rfl
  | cons a l ih =>
    rw [List.mapM_cons]
    rcases h a (by simp) with ha | ⟨e, ha, he⟩
    · rw [ha, except_bind_ok]
      rcases ih (fun b hb => h b (by simp [hb])) with hl | ⟨e, hl, he⟩
      · rw [hl]; exact .inl rfl
      · rw [hl]; exact .inr ⟨e, rfl, he⟩
    · rw [ha]; exact .inr ⟨e, rfl, he⟩

theorem overPieces_ans {A : Err → Prop} {call : List P → Norm P → Except Err ℝ} {norm : Norm P} {limits : List P}
    (h : ∀ limits, Ans (OrMulti A limits) (call limits norm) (integralOf μ limits norm))
    (hA : ¬ A .multipleLimitsNotImplemented) :
    Ans A (overPieces call limits norm) (integralOf μ limits norm) := by
  unfold overPieces
  rcases h limits with hr | ⟨e, hr, he⟩
  · rw [hr]; exact .inl rfl
  · rw [hr]
    rcases he with he | ⟨rfl, hlen⟩
    · have hne : e ≠ .multipleLimitsNotImplemented := fun h => hA (h ▸ he)
      split
      · rename_i heq; cases heq; exact absurd rfl hne
      · exact .inr ⟨e, rfl, he⟩
    · simp only
      have hone : ∀ p ∈ limits, Ans A (call [p] norm) (integralOf μ [p] norm) := by
        intro p _
        exact (h [p]).mono (fun e he => he.elim id (fun h => absurd h.2 (by simp)))
      rcases mapM_ans _ _ limits hone with hm | ⟨e, hm, he⟩
      · rw [hm, except_bind_ok, integralOf_pieces]; exact .inl rfl
      · rw [hm]; exact .inr ⟨e, rfl, he⟩

variable {m : Impl X P}

theorem isFNI_iff {e : Err} : isFNI e = true ↔ e = .functionNotImplemented := by simp [isFNI]

theorem isAnalytic_iff {e : Err} : isAnalytic e = true ↔ e = .analyticNotImplemented := by simp [isAnalytic]

def Never (_ : Err) : Prop := False

theorem Ans.ok {r : Except Err ℝ} {v : ℝ} (h : Ans Never r v) : r = .ok v := by
  rcases h with h | ⟨_, _, h⟩
  · exact h
  · exact h.elim

theorem callAnalytic_ans (hm : Honest m f μ) {norm : Norm P} (hg : norm.Good μ) (limits : List P) :
    Ans (OrMulti (OrNorm (fun e => e = .analyticNotImplemented) norm) limits) (m.callAnalytic limits norm)
      (integralOf μ limits norm) := by
  have hreg : Ans (OrMulti (OrNorm (fun e => e = .analyticNotImplemented) norm) limits) (m.registeredIntegral limits norm)
      (integralOf μ limits norm) := by
    unfold Impl.registeredIntegral
    cases hr : m.registered limits with
    | none => exact .inr ⟨_, rfl, .inl (.inl rfl)⟩
    | some h =>
      refine suppress_ans (LHook.call_ans (hm.registered limits h hr) hg)
        (C := fun e => e = .analyticNotImplemented) (.inr ⟨_, rfl, rfl⟩) ?_ (fun e he => .inl (.inl he))
      intro e he
      rcases he with (he | he) | he
      · rcases he with rfl | rfl
        · exact .inl rfl
        · exact .inr (.inl (.inl rfl))
      · exact .inr (.inl (.inr he))
      · exact .inr (.inr he)
  unfold Impl.callAnalytic
  refine suppress_ans (callL_ans (B := NotAnalytic) (.inl rfl) (fun h hh => hm.analytic h hh limits) hg) hreg ?_
    (fun e he => he)
  intro e he
  rcases he with (he | he) | he
  · rcases he with rfl | rfl
    · exact .inl rfl
    · exact .inl rfl
  · exact .inr (.inl (.inr he))
  · exact .inr (.inr he)

theorem analyticPieces_ans (hm : Honest m f μ) {norm : Norm P} (hg : norm.Good μ) (limits : List P) :
    Ans (OrNorm (fun e => e = .analyticNotImplemented) norm) (overPieces m.callAnalytic limits norm)
      (integralOf μ limits norm) :=
  overPieces_ans (callAnalytic_ans hm hg) (by rintro (h | ⟨h, _⟩) <;> cases h)

theorem orNorm_pyFalse {A : Err → Prop} {e : Err} (h : OrNorm (P := P) A .pyFalse e) : A e := by
  rcases h with h | ⟨_, n, h⟩
  · exact h
  · cases h

theorem hookAnalytic_ans (hm : Honest m f μ) {norm : Norm P} (hg : norm.Good μ) (limits : List P) :
    Ans (OrNorm (fun e => e = .analyticNotImplemented) norm) (m.hookAnalytic limits norm)
      (integralOf μ limits norm) := by
  unfold Impl.hookAnalytic
  rcases analyticPieces_ans hm hg limits with hr | ⟨e, hr, he⟩
  · rw [hr]; exact .inl rfl
  · rw [hr]
    rcases he with rfl | ⟨rfl, n, rfl⟩
    · exact .inr ⟨_, rfl, .inl rfl⟩
    · simp only
      rcases analyticPieces_ans hm (norm := .pyFalse) trivial limits with hu | ⟨e, hu, he⟩
      · rw [hu, except_bind_ok]
        unfold Impl.analyticNormalization
        rcases analyticPieces_ans hm (norm := .pyFalse) trivial n with ht | ⟨e, ht, he⟩
        · rw [ht]; exact .inl rfl
        · have := orNorm_pyFalse he
          subst this
          rw [ht]
          exact .inr ⟨_, rfl, .inr ⟨rfl, n, rfl⟩⟩
      · have := orNorm_pyFalse he
        subst this
        rw [hu]
        exact .inr ⟨_, rfl, .inl rfl⟩

/-- `pdf(x, norm=False)`, where the density is positive if a `_log_pdf` is involved. -/
theorem callPdfWith_false (hm : Honest m f μ) (N : List P → Except Err ℝ) {x : X}
    (hx : m.logPdf = none ∨ 0 < f x) : m.callPdfWith N x .falseSpace = .ok (f x) := by
  have hlog : Ans NotImpl ((callN m.logPdf x .falseSpace).map Real.exp) (f x) := by
    cases hl : m.logPdf with
    | none => exact .inr ⟨_, rfl, rfl⟩
    | some h =>
      have hpos : 0 < f x := by
        rcases hx with hx | hx
        · rw [hl] at hx; cases hx
        · exact hx
      have := callN_ans (h := m.logPdf) (a := x) (norm := .falseSpace) (B := NotImpl) (μ := μ)
        (v := fun norm => Real.log (density f μ x norm)) rfl rfl (fun h' hh norm hg => hm.logPdf h' hh x norm hpos hg) trivial
      rw [← hl]
      rcases this with h | ⟨e, h, he⟩
      · rw [h]; left; simp [Except.map, density, Real.exp_log hpos]
      · rw [h]
        rcases he with he | ⟨_, n, he⟩
        · exact .inr ⟨e, rfl, he⟩
        · cases he
  have hpdf : Ans NotImpl (callN m.pdf x .falseSpace) (f x) :=
    (callN_ans (h := m.pdf) (a := x) (norm := .falseSpace) (B := NotImpl) (μ := μ) (v := fun norm => density f μ x norm)
      rfl rfl (fun h' hh norm hg => hm.pdf h' hh x norm hg) trivial).mono (by
        rintro e (he | ⟨_, n, he⟩)
        · exact he
        · cases he)
  have hcatch : ∀ e, NotImpl e → isFNI e = true ∨ Never e := fun e he => .inl (isFNI_iff.2 he)
  apply Ans.ok
  unfold Impl.callPdfWith
  rcases hm.complete with hc | ⟨h, hh, hc⟩
  · refine suppress_ans hpdf (suppress_ans hlog (C := Never) (B := Never) ?_ hcatch (fun e he => he)) hcatch (fun e he => he)
    have hfb : Ans Never (m.fallbackPdf N x .falseSpace) (f x) := by
      left; unfold Impl.fallbackPdf; rw [hc]; rfl
    unfold Impl.pdfFromExt
    cases hy : m.yield with
    | none => exact hfb
    | some y =>
      refine suppress_ans (A := NotImpl) ?_ hfb hcatch (fun e he => he)
      have := callN_ans (h := m.extPdf) (a := x) (norm := .falseSpace) (B := NotImpl) (μ := μ)
        (v := fun norm => y * density f μ x norm) rfl rfl (fun h' hh norm hg => hm.extPdf h' y hh hy x norm hg) trivial
      rcases this with h | ⟨e, h, he⟩
      · rw [h]; left
        simp only [Except.map, density]
        rw [mul_div_cancel_left₀ _ (hm.yield y hy)]
      · rw [h]
        rcases he with he | ⟨_, n, he⟩
        · exact .inr ⟨e, rfl, he⟩
        · cases he
  · have : callN m.pdf x .falseSpace = .ok (f x) := by
      unfold callN NHook.call
      rw [hh]
      simp only
      split
      · rename_i ha; rw [hc x .falseSpace trivial ha]; rfl
      · rw [hc x .pyFalse trivial trivial]; rfl
    left
    rw [this]; rfl

theorem rawPdf_ok (hm : Honest m f μ) (hpos : m.logPdf = none ∨ ∀ x, 0 < f x) (x : X) : m.rawPdf x = .ok (f x) :=
  callPdfWith_false hm _ (hpos.imp id (fun h => h x))

theorem callNumeric_ans (hm : Honest m f μ) (hpos : m.logPdf = none ∨ ∀ x, 0 < f x) {norm : Norm P} (hg : norm.Good μ)
    (limits : List P) :
    Ans (OrMulti (OrNorm Never norm) limits) (m.callNumeric limits norm) (integralOf μ limits norm) := by
  unfold Impl.callNumeric
  have hfb : Ans (OrMulti (OrNorm Never norm) limits) (m.fallbackNumeric limits norm) (integralOf μ limits norm) := by
    have hni := hm.numInt m.rawPdf (rawPdf_ok hm hpos) limits
    unfold Impl.fallbackNumeric
    cases norm with
    | range n => exact .inr ⟨_, rfl, .inl (.inr ⟨rfl, n, rfl⟩)⟩
    | falseSpace =>
      rcases hni with h | ⟨hl, h⟩
      · exact .inl h
      · exact .inr ⟨_, h, .inr ⟨rfl, hl⟩⟩
    | pyFalse =>
      rcases hni with h | ⟨hl, h⟩
      · exact .inl h
      · exact .inr ⟨_, h, .inr ⟨rfl, hl⟩⟩
  refine suppress_ans (callL_ans (B := NotImpl) rfl (fun h hh => hm.numeric h hh limits) hg) hfb ?_ (fun e he => he)
  rintro e ((he | he) | he)
  · exact .inl (isFNI_iff.2 he)
  · exact .inr (.inl (.inr he))
  · exact .inr (.inr he)

theorem numericPieces_ans (hm : Honest m f μ) (hpos : m.logPdf = none ∨ ∀ x, 0 < f x) {norm : Norm P}
    (hg : norm.Good μ) (limits : List P) :
    Ans (OrNorm Never norm) (overPieces m.callNumeric limits norm) (integralOf μ limits norm) :=
  overPieces_ans (callNumeric_ans hm hpos hg) (by rintro (h | ⟨h, _⟩) <;> cases h)

theorem hookNumeric_ok (hm : Honest m f μ) (hpos : m.logPdf = none ∨ ∀ x, 0 < f x) {norm : Norm P}
    (hg : norm.Good μ) (limits : List P) : m.hookNumeric limits norm = .ok (integralOf μ limits norm) := by
  unfold Impl.hookNumeric
  rcases numericPieces_ans hm hpos hg limits with hr | ⟨e, hr, he⟩
  · rw [hr]
  · rcases he with he | ⟨rfl, n, rfl⟩
    · exact he.elim
    · rw [hr]
      simp only
      have h1 := (numericPieces_ans hm hpos (norm := .pyFalse) trivial limits).mono (fun e he => orNorm_pyFalse he)
      have h2 := (numericPieces_ans hm hpos (norm := .pyFalse) trivial n).mono (fun e he => orNorm_pyFalse he)
      rw [h1.ok, h2.ok]
      rfl

theorem callIntegrate_ans (hm : Honest m f μ) (hpos : m.logPdf = none ∨ ∀ x, 0 < f x) {norm : Norm P}
    (hg : norm.Good μ) (limits : List P) :
    Ans (OrMulti (OrNorm Never norm) limits) (m.callIntegrate limits norm) (integralOf μ limits norm) := by
  unfold Impl.callIntegrate
  have h2 : Ans (OrMulti (OrNorm Never norm) limits)
      (suppress isAnalytic (m.hookAnalytic limits norm) (m.hookNumeric limits norm)) (integralOf μ limits norm) := by
    refine suppress_ans (hookAnalytic_ans hm hg limits) (C := Never) (.inl (hookNumeric_ok hm hpos hg limits)) ?_
      (fun e he => he.elim)
    rintro e (rfl | he)
    · exact .inl rfl
    · exact .inr (.inl (.inr he))
  refine suppress_ans (callL_ans (B := NotImpl) rfl (fun h hh => hm.integrate h hh limits) hg) h2 ?_ (fun e he => he)
  rintro e ((he | he) | he)
  · exact .inl (isFNI_iff.2 he)
  · exact .inr (.inl (.inr he))
  · exact .inr (.inr he)

theorem integratePieces_ans (hm : Honest m f μ) (hpos : m.logPdf = none ∨ ∀ x, 0 < f x) {norm : Norm P}
    (hg : norm.Good μ) (limits : List P) :
    Ans (OrNorm Never norm) (overPieces m.callIntegrate limits norm) (integralOf μ limits norm) :=
  overPieces_ans (callIntegrate_ans hm hpos hg) (by rintro (h | ⟨h, _⟩) <;> cases h)

theorem integral_ok (hm : Honest m f μ) (hpos : m.logPdf = none ∨ ∀ x, 0 < f x) {norm : Norm P} (hg : norm.Good μ)
    (limits : List P) : m.integral limits norm = .ok (integralOf μ limits norm) := by
  unfold Impl.integral
  rcases integratePieces_ans hm hpos hg limits with hr | ⟨e, hr, he⟩
  · rw [hr]
  · rcases he with he | ⟨rfl, n, rfl⟩
    · exact he.elim
    · rw [hr]
      simp only
      have h1 := (integratePieces_ans hm hpos (norm := .pyFalse) trivial limits).mono (fun e he => orNorm_pyFalse he)
      have h2 := (integratePieces_ans hm hpos (norm := .pyFalse) trivial n).mono (fun e he => orNorm_pyFalse he)
      rw [h1.ok, except_bind_ok, h2.ok]
      rfl

theorem normalizationOver_ok (hm : Honest m f μ) (hpos : m.logPdf = none ∨ ∀ x, 0 < f x) {n : List P}
    (hn : 0 < total μ n) : m.normalizationOver n = .ok (total μ n) := by
  have hi : m.integral n .pyFalse = .ok (total μ n) := integral_ok hm hpos (norm := .pyFalse) trivial n
  unfold Impl.normalizationOver
  rw [hi]
  cases hh : m.normalization with
  | none => rfl
  | some h =>
    obtain ⟨h1, h2⟩ := hm.normalization h hh
    unfold callN NHook.call
    simp only [h1, Bool.true_or, if_true]
    rcases h2 n hn with h | ⟨e, h, he⟩
    · rw [h]; rfl
    · rw [h, he]; rfl

end Zfit.Pdf
