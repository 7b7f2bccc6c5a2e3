import Verif.Part.Spec
import Verif.Pdf.Lemmas

/-! # Partial integrals: which value is returned -/

namespace Zfit.Part

open Zfit Zfit.Pdf

variable {X Y P Q : Type} {m : Impl X Y P Q} {f : X → ℝ} {μ : P → ℝ} {ν : Y → Q → ℝ}

theorem partialOf_pieces (y : Y) (limits : List Q) (norm : Pdf.Norm P) :
    (limits.map (fun q => partialOf ν μ y [q] norm)).sum = partialOf ν μ y limits norm := by
  cases norm with
  | range n =>
    simp only [partialOf, total_single]
    unfold total
    induction limits with
    | nil => simp
    | cons a l ih => simp [ih, add_div]
  | falseSpace => simp [partialOf, total]
  | pyFalse => simp [partialOf, total]

theorem PHook.call_ans {h : PHook Y P Q} {y : Y} {limits : List Q} {norm : Pdf.Norm P} {B : Err → Prop}
    (himpl : ∀ norm, norm.Good μ → h.Passes norm → Ans B (h.impl (y, limits) norm) (partialOf ν μ y limits norm))
    (hg : norm.Good μ) :
    Ans (OrMulti (OrNorm B norm) limits) (h.call y limits norm) (partialOf ν μ y limits norm) := by
  unfold PHook.call
  split
  · rename_i hc
    simp only [Bool.and_eq_true, decide_eq_true_eq] at hc
    exact .inr ⟨_, rfl, .inr ⟨rfl, hc.2⟩⟩
  · exact (NHook.call_ans (v := partialOf ν μ y limits) rfl himpl hg).mono (fun e he => .inl he)

theorem callP_ans {h : Option (PHook Y P Q)} {y : Y} {limits : List Q} {norm : Pdf.Norm P} {B : Err → Prop}
    (hB : B .functionNotImplemented)
    (himpl : ∀ h', h = some h' → ∀ norm, norm.Good μ → h'.Passes norm →
      Ans B (h'.impl (y, limits) norm) (partialOf ν μ y limits norm)) (hg : norm.Good μ) :
    Ans (OrMulti (OrNorm B norm) limits) (callP h y limits norm) (partialOf ν μ y limits norm) := by
  cases h with
  | none => exact .inr ⟨_, rfl, .inl (.inl hB)⟩
  | some h => exact PHook.call_ans (himpl h rfl) hg

theorem overPieces_ans {A : List Q → Err → Prop} {call : Y → List Q → Pdf.Norm P → Except Err ℝ} {norm : Pdf.Norm P} {y : Y}
    {limits : List Q} (h : ∀ limits, Ans (OrMulti (A limits) limits) (call y limits norm) (partialOf ν μ y limits norm))
    (hA : ¬ A limits .multipleLimitsNotImplemented) (hone : ∀ q ∈ limits, ∀ e, A [q] e → A limits e) :
    Ans (A limits) (overPieces call y limits norm) (partialOf ν μ y limits norm) := by
  unfold overPieces
  rcases h limits with hr | ⟨e, hr, he⟩
  · rw [hr]; exact .inl rfl
  · rw [hr]
    rcases he with he | ⟨rfl, hlen⟩
    · have hne : e ≠ .multipleLimitsNotImplemented := fun h => hA (h ▸ he)
      split
      · rename_i heq; cases heq; exact absurd rfl hne
      · exact .inr ⟨e, rfl, he⟩
    · simp only
      have h1 : ∀ q ∈ limits, Ans (A limits) (call y [q] norm) (partialOf ν μ y [q] norm) := by
        intro q hq
        exact (h [q]).mono (fun e he => he.elim (hone q hq e) (fun h => absurd h.2 (by simp)))
      rcases mapM_ans _ _ limits h1 with hm | ⟨e, hm, he⟩
      · rw [hm, except_bind_ok, partialOf_pieces]; exact .inl rfl
      · rw [hm]; exact .inr ⟨e, rfl, he⟩

/-- `AnalyticIntegralNotImplemented`. -/
def Missing (e : Err) : Prop := e = .analyticNotImplemented

theorem callAnalytic_ans (hm : Honest m f μ ν) {norm : Pdf.Norm P} (hg : norm.Good μ) (y : Y) (limits : List Q) :
    Ans (OrMulti (OrNorm Missing norm) limits) (m.callAnalytic y limits norm) (partialOf ν μ y limits norm) := by
  have hreg : Ans (OrMulti (OrNorm Missing norm) limits) (m.registeredIntegral y limits norm)
      (partialOf ν μ y limits norm) := by
    unfold Impl.registeredIntegral
    cases hr : m.registered limits with
    | none => exact .inr ⟨_, rfl, .inl (.inl rfl)⟩
    | some h =>
      refine suppress_ans (PHook.call_ans (hm.registered limits h hr y) hg)
        (C := Missing) (.inr ⟨_, rfl, rfl⟩) ?_ (fun e he => .inl (.inl he))
      intro e he
      rcases he with (he | he) | he
      · rcases he with rfl | rfl
        · exact .inl rfl
        · exact .inr (.inl (.inl rfl))
      · exact .inr (.inl (.inr he))
      · exact .inr (.inr he)
  unfold Impl.callAnalytic
  refine suppress_ans (callP_ans (B := NotAnalytic) (.inl rfl) (fun h hh => hm.analytic h hh y limits) hg) hreg ?_
    (fun e he => he)
  intro e he
  rcases he with (he | he) | he
  · rcases he with rfl | rfl
    · exact .inl rfl
    · exact .inl rfl
  · exact .inr (.inl (.inr he))
  · exact .inr (.inr he)

theorem analyticPieces_ans (hm : Honest m f μ ν) {norm : Pdf.Norm P} (hg : norm.Good μ) (y : Y) (limits : List Q) :
    Ans (OrNorm Missing norm) (overPieces m.callAnalytic y limits norm) (partialOf ν μ y limits norm) :=
  overPieces_ans (A := fun _ => OrNorm Missing norm) (callAnalytic_ans hm hg y)
    (by rintro (h | ⟨h, _⟩) <;> cases h) (fun _ _ _ h => h)

theorem partialAnalytic_ans (hm : Honest m f μ ν) {norm : Pdf.Norm P} (hg : norm.Good μ) (y : Y) (limits : List Q) :
    Ans (OrNorm Missing norm) (m.partialAnalytic y limits norm) (partialOf ν μ y limits norm) := by
  unfold Impl.partialAnalytic
  rcases analyticPieces_ans hm hg y limits with hr | ⟨e, hr, he⟩
  · rw [hr]; exact .inl rfl
  · rw [hr]
    rcases he with rfl | ⟨rfl, n, rfl⟩
    · exact .inr ⟨_, rfl, .inl rfl⟩
    · simp only
      rcases analyticPieces_ans hm (norm := .pyFalse) trivial y limits with hu | ⟨e, hu, he⟩
      · rw [hu, except_bind_ok]
        unfold Pdf.Impl.analyticNormalization
        rcases Pdf.analyticPieces_ans hm.base (norm := .pyFalse) trivial n with ht | ⟨e, ht, he⟩
        · rw [ht]; exact .inl rfl
        · have := orNorm_pyFalse he
          subst this
          rw [ht]
          exact .inr ⟨_, rfl, .inr ⟨rfl, n, rfl⟩⟩
      · have := orNorm_pyFalse he
        cases this
        rw [hu]
        exact .inr ⟨_, rfl, .inl rfl⟩

/-- How a partial integral can fail: numerically over several (or no) pieces, or with a registered integral that raises. -/
def Refused (m : Impl X Y P Q) (limits : List Q) (e : Err) : Prop :=
  (e = .valueError ∧ limits.length ≠ 1 ∧ m.registered limits = none) ∨
    (e = .assertionError ∧ ∃ l, (l = limits ∨ ∃ q ∈ limits, l = [q]) ∧ (m.registered l).isSome)

theorem autoNumeric_ans (hm : Honest m f μ ν) (hpos : m.base.logPdf = none ∨ ∀ x, 0 < f x) {norm : Pdf.Norm P}
    (y : Y) (limits : List Q) :
    Ans (OrNorm (fun e => e = .valueError ∧ limits.length ≠ 1) norm) (m.autoNumeric m.base.rawPdf y limits norm)
      (partialOf ν μ y limits norm) := by
  have key : ∀ {nm : Pdf.Norm P}, (∀ n, nm ≠ .range n) → Ans (OrNorm (fun e => e = .valueError ∧ limits.length ≠ 1) nm)
      (match limits with
        | [q] => m.numInt m.base.rawPdf y q
        | _ => .error .valueError) (total (ν y) limits) := by
    intro nm _
    match limits with
    | [] => exact .inr ⟨_, rfl, .inl ⟨rfl, by simp⟩⟩
    | [q] =>
      left
      show m.numInt _ y q = _
      rw [hm.numInt _ (rawPdf_ok hm.base hpos), total_single]
    | a :: b :: l => exact .inr ⟨_, rfl, .inl ⟨rfl, by simp⟩⟩
  unfold Impl.autoNumeric
  cases norm with
  | range n => exact .inr ⟨_, rfl, .inr ⟨rfl, n, rfl⟩⟩
  | falseSpace => exact key (fun n h => (by cases h))
  | pyFalse => exact key (fun n h => (by cases h))

theorem callPartial_ans (hm : Honest m f μ ν) (hpos : m.base.logPdf = none ∨ ∀ x, 0 < f x) {norm : Pdf.Norm P}
    (hg : norm.Good μ) (y : Y) (limits : List Q) :
    Ans (OrMulti (OrNorm (Refused m limits) norm) limits) (m.callPartial y limits norm) (partialOf ν μ y limits norm) := by
  have hfb : Ans (OrNorm (Refused m limits) norm) (m.fallback y limits norm) (partialOf ν μ y limits norm) := by
    unfold Impl.fallback
    cases hr : m.registered limits with
    | some h => exact .inr ⟨_, rfl, .inl (.inr ⟨rfl, limits, .inl rfl, by simp [hr]⟩)⟩
    | none =>
      refine (autoNumeric_ans hm hpos y limits).mono ?_
      rintro e (⟨he, hl⟩ | he)
      · exact .inl (.inl ⟨he, hl, hr⟩)
      · exact .inr he
  have h3 : Ans (OrNorm (Refused m limits) norm)
      (suppress isFNI (m.fallback y limits norm) (.error .analyticNotImplemented)) (partialOf ν μ y limits norm) := by
    rcases hfb with h | ⟨e, h, he⟩
    · rw [h]; exact .inl rfl
    · rw [h]
      unfold suppress
      have hne : isFNI e = false := by
        rcases he with (⟨rfl, _⟩ | ⟨rfl, _⟩) | ⟨rfl, _⟩ <;> rfl
      simp only [hne]
      exact .inr ⟨e, rfl, he⟩
  have h2 : Ans (OrNorm (Refused m limits) norm) (suppress isAnalytic (m.partialAnalytic y limits norm)
      (suppress isFNI (m.fallback y limits norm) (.error .analyticNotImplemented))) (partialOf ν μ y limits norm) := by
    refine suppress_ans (partialAnalytic_ans hm hg y limits) h3 ?_ (fun e he => he)
    rintro e (rfl | he)
    · exact .inl rfl
    · exact .inr (.inr he)
  unfold Impl.callPartial
  refine suppress_ans (callP_ans (B := NotImpl) rfl (fun h hh => hm.part h hh y limits) hg) h2 ?_ (fun e he => .inl he)
  rintro e ((he | he) | he)
  · exact .inl (isFNI_iff.2 he)
  · exact .inr (.inl (.inr he))
  · exact .inr (.inr he)

theorem partialPieces_ans (hm : Honest m f μ ν) (hpos : m.base.logPdf = none ∨ ∀ x, 0 < f x) {norm : Pdf.Norm P}
    (hg : norm.Good μ) (y : Y) (limits : List Q) :
    Ans (OrNorm (Refused m limits) norm) (overPieces m.callPartial y limits norm) (partialOf ν μ y limits norm) := by
  refine overPieces_ans (A := fun l => OrNorm (Refused m l) norm) (callPartial_ans hm hpos hg y) ?_ ?_
  · rintro ((⟨h, _⟩ | ⟨h, _⟩) | ⟨h, _⟩) <;> cases h
  · rintro q hq e ((⟨_, h, _⟩ | ⟨he, l, hl, hs⟩) | h)
    · simp at h
    · refine .inl (.inr ⟨he, l, ?_, hs⟩)
      rcases hl with rfl | ⟨q', hq', rfl⟩
      · exact .inr ⟨q, hq, rfl⟩
      · rw [List.mem_singleton] at hq'
        exact .inr ⟨q', hq' ▸ hq, rfl⟩
    · exact .inr h

theorem partialIntegrate_ans (hm : Honest m f μ ν) (hpos : m.base.logPdf = none ∨ ∀ x, 0 < f x) {norm : Pdf.Norm P}
    (hg : norm.Good μ) (y : Y) (limits : List Q) :
    Ans (Refused m limits) (m.partialIntegrate y limits norm) (partialOf ν μ y limits norm) := by
  unfold Impl.partialIntegrate
  rcases partialPieces_ans hm hpos hg y limits with hr | ⟨e, hr, he⟩
  · rw [hr]; exact .inl rfl
  · rcases he with he | ⟨rfl, n, rfl⟩
    · rw [hr]
      split
      · rename_i heq; cases heq
        rcases he with ⟨h, _⟩ | ⟨h, _⟩ <;> cases h
      · exact .inr ⟨e, rfl, he⟩
    · rw [hr]
      simp only
      rcases partialPieces_ans hm hpos (norm := .pyFalse) trivial y limits with hu | ⟨e, hu, he⟩
      · have h2 : m.base.integral n .pyFalse = .ok (total μ n) := Pdf.integral_ok hm.base hpos (norm := .pyFalse) trivial n
        rw [hu, except_bind_ok, h2]
        exact .inl rfl
      · rw [hu]
        exact .inr ⟨e, rfl, orNorm_pyFalse he⟩

/-- C137: whichever methods a subclass overrides and whichever integrals are registered, if `partial_integrate` or
`partial_analytic_integrate` returns a value it is the integral over all pieces of the limits at the event, divided by the
integral over the normalisation range if there is one. -/
theorem partial_integral_sound (hm : Honest m f μ ν) (hpos : m.base.logPdf = none ∨ ∀ x, 0 < f x) (y : Y) (limits : List Q)
    (v : ℝ) :
    ((m.partialIntegrate y limits .falseSpace = .ok v ∨ m.partialAnalytic y limits .falseSpace = .ok v) →
      v = (limits.map (ν y)).sum) ∧
    ∀ n : List P, 0 < total μ n →
      (m.partialIntegrate y limits (.range n) = .ok v ∨ m.partialAnalytic y limits (.range n) = .ok v) →
      v = (limits.map (ν y)).sum / total μ n := by
  have key : ∀ {A : Err → Prop} {r : Except Err ℝ} {w : ℝ}, Ans A r w → r = .ok v → v = w := by
    rintro A r w (h | ⟨e, h, _⟩) hr
    · rw [h] at hr; exact (Except.ok.inj hr).symm
    · rw [h] at hr; cases hr
  refine ⟨?_, ?_⟩
  · rintro (h | h)
    · exact key (partialIntegrate_ans hm hpos (norm := .falseSpace) trivial y limits) h
    · exact key (partialAnalytic_ans hm (norm := .falseSpace) trivial y limits) h
  · rintro n hn (h | h)
    · exact key (partialIntegrate_ans hm hpos (norm := .range n) hn y limits) h
    · exact key (partialAnalytic_ans hm (norm := .range n) hn y limits) h

theorem single_pieces {call : Y → List Q → Pdf.Norm P → Except Err ℝ} {y : Y} {q : Q} {norm : Pdf.Norm P} {v : ℝ}
    (h : Ans (OrNorm Never norm) (call y [q] norm) v) : overPieces call y [q] norm = call y [q] norm := by
  unfold overPieces
  rcases h with h | ⟨e, h, he | ⟨rfl, _⟩⟩
  · rw [h]
  · exact he.elim
  · rw [h]

theorem analytic_answers (hm : Honest m f μ ν) (hans : Answering m μ ν) (y : Y) (q : Q) {h : PHook Y P Q}
    (hr : m.registered [q] = some h) {norm : Pdf.Norm P} (hg : norm.Good μ) :
    Ans (OrNorm Never norm) (m.callAnalytic y [q] norm) (partialOf ν μ y [q] norm) := by
  have hri : Ans (OrNorm Never norm) (m.registeredIntegral y [q] norm) (partialOf ν μ y [q] norm) := by
    unfold Impl.registeredIntegral
    rw [hr]
    have := PHook.call_ans (h := h) (y := y) (limits := [q]) (ν := ν) (B := Never)
      (fun nm hgn hp => Or.inl (hans [q] h hr y nm hgn hp)) hg
    rcases this with hc | ⟨e, hc, (he | ⟨rfl, hn⟩) | ⟨_, hl⟩⟩
    · simp only [hc, suppress]; exact .inl rfl
    · exact he.elim
    · simp only [hc, suppress]; exact .inr ⟨_, rfl, .inr ⟨rfl, hn⟩⟩
    · simp at hl
  unfold Impl.callAnalytic
  refine suppress_ans (callP_ans (B := NotAnalytic) (.inl rfl) (fun h hh => hm.analytic h hh y [q]) hg) hri ?_
    (fun e he => he)
  rintro e ((he | he) | ⟨_, hl⟩)
  · rcases he with rfl | rfl
    · exact .inl rfl
    · exact .inl rfl
  · exact .inr (.inr he)
  · simp at hl

theorem partialAnalytic_answers (hm : Honest m f μ ν) (hans : Answering m μ ν) (y : Y) (q : Q) {h : PHook Y P Q}
    (hr : m.registered [q] = some h) {norm : Pdf.Norm P} (hg : norm.Good μ) :
    Ans (OrNorm Never norm) (m.partialAnalytic y [q] norm) (partialOf ν μ y [q] norm) := by
  have h1 := analytic_answers hm hans y q hr hg
  unfold Impl.partialAnalytic
  rw [single_pieces h1]
  rcases h1 with h1 | ⟨e, h1, he | ⟨rfl, n, rfl⟩⟩
  · rw [h1]; exact .inl rfl
  · exact he.elim
  · rw [h1]
    simp only
    have h2 := analytic_answers hm hans y q hr (norm := .pyFalse) trivial
    rw [single_pieces h2]
    have h3 := (h2.mono (fun e he => orNorm_pyFalse he)).ok
    rw [h3, except_bind_ok]
    unfold Pdf.Impl.analyticNormalization
    rcases Pdf.analyticPieces_ans hm.base (norm := .pyFalse) trivial n with ht | ⟨e, ht, he⟩
    · rw [ht]; exact .inl rfl
    · have := orNorm_pyFalse he
      subst this
      rw [ht]
      exact .inr ⟨_, rfl, .inr ⟨rfl, n, rfl⟩⟩

theorem callPartial_answers (hm : Honest m f μ ν) (hpos : m.base.logPdf = none ∨ ∀ x, 0 < f x) (hans : Answering m μ ν)
    (y : Y) (q : Q) {norm : Pdf.Norm P} (hg : norm.Good μ) :
    Ans (OrNorm Never norm) (m.callPartial y [q] norm) (partialOf ν μ y [q] norm) := by
  have hrest : Ans (OrNorm Never norm) (suppress isAnalytic (m.partialAnalytic y [q] norm)
      (suppress isFNI (m.fallback y [q] norm) (.error .analyticNotImplemented))) (partialOf ν μ y [q] norm) := by
    cases hr : m.registered [q] with
    | none =>
      have hf : Ans (OrNorm Never norm) (m.fallback y [q] norm) (partialOf ν μ y [q] norm) := by
        unfold Impl.fallback
        rw [hr]
        refine (autoNumeric_ans hm hpos y [q]).mono ?_
        rintro e (⟨_, h⟩ | h)
        · simp at h
        · exact .inr h
      have hf2 : Ans (OrNorm Never norm) (suppress isFNI (m.fallback y [q] norm) (.error .analyticNotImplemented))
          (partialOf ν μ y [q] norm) := by
        rcases hf with h | ⟨e, h, he | ⟨rfl, hn⟩⟩
        · rw [h]; exact .inl rfl
        · exact he.elim
        · rw [h]; exact .inr ⟨_, rfl, .inr ⟨rfl, hn⟩⟩
      refine suppress_ans (partialAnalytic_ans hm hg y [q]) hf2 ?_ (fun e he => he)
      rintro e (rfl | he)
      · exact .inl rfl
      · exact .inr (.inr he)
    | some h =>
      rcases partialAnalytic_answers hm hans y q hr hg with ha | ⟨e, ha, he | ⟨rfl, hn⟩⟩
      · rw [ha]; exact .inl rfl
      · exact he.elim
      · rw [ha]; exact .inr ⟨_, rfl, .inr ⟨rfl, hn⟩⟩
  unfold Impl.callPartial
  refine suppress_ans (callP_ans (B := NotImpl) rfl (fun h hh => hm.part h hh y [q]) hg) hrest ?_ (fun e he => he)
  rintro e ((he | he) | ⟨_, hl⟩)
  · exact .inl (isFNI_iff.2 he)
  · exact .inr (.inr he)
  · simp at hl

theorem partialIntegrate_answers (hm : Honest m f μ ν) (hpos : m.base.logPdf = none ∨ ∀ x, 0 < f x) (hans : Answering m μ ν)
    (y : Y) (q : Q) {norm : Pdf.Norm P} (hg : norm.Good μ) :
    m.partialIntegrate y [q] norm = .ok (partialOf ν μ y [q] norm) := by
  have h1 := callPartial_answers hm hpos hans y q hg
  unfold Impl.partialIntegrate
  rw [single_pieces h1]
  rcases h1 with h1 | ⟨e, h1, he | ⟨rfl, n, rfl⟩⟩
  · rw [h1]
  · exact he.elim
  · rw [h1]
    simp only
    have h2 := callPartial_answers hm hpos hans y q (norm := .pyFalse) trivial
    rw [single_pieces h2, (h2.mono (fun e he => orNorm_pyFalse he)).ok, except_bind_ok]
    have h3 : m.base.integral n .pyFalse = .ok (total μ n) := Pdf.integral_ok hm.base hpos (norm := .pyFalse) trivial n
    rw [h3]
    rfl

/-- C137: over one piece `partial_integrate` always returns this value, unless a registered integral raises on its own. -/
theorem partial_integral_single (hm : Honest m f μ ν) (hpos : m.base.logPdf = none ∨ ∀ x, 0 < f x)
    (hans : Answering m μ ν) (y : Y) (q : Q) :
    m.partialIntegrate y [q] .falseSpace = .ok (ν y q) ∧
    ∀ n : List P, 0 < total μ n → m.partialIntegrate y [q] (.range n) = .ok (ν y q / total μ n) := by
  refine ⟨?_, ?_⟩
  · rw [partialIntegrate_answers hm hpos hans y q (norm := .falseSpace) trivial]
    simp [partialOf, total]
  · intro n hn
    rw [partialIntegrate_answers hm hpos hans y q (norm := .range n) hn]
    simp [partialOf, total]

/-- C138 (partial: where the code can do it): over several pieces the partial integral is the sum of those over the pieces if
`_partial_integrate` is overridden and answers for single pieces. Missing from the full claim: the cases of `partial_pieces_violated`. -/
theorem partial_pieces_partial (hm : Honest m f μ ν) (h : PHook Y P Q) (hp : m.part = some h)
    (hok : ∀ y limits norm, norm.Good μ → h.Passes norm → h.impl (y, limits) norm = .ok (partialOf ν μ y limits norm))
    (y : Y) (limits : List Q) :
    m.partialIntegrate y limits .falseSpace = .ok ((limits.map (ν y)).sum) := by
  have hcall : ∀ l : List Q, Ans (OrMulti Never l) (m.callPartial y l .falseSpace) (partialOf ν μ y l .falseSpace) := by
    intro l
    have := callP_ans (h := m.part) (y := y) (limits := l) (norm := .falseSpace) (B := NotImpl) rfl
      (fun h hh => hm.part h hh y l) (trivial : (Pdf.Norm.falseSpace : Pdf.Norm P).Good μ)
    have h2 := PHook.call_ans (h := h) (y := y) (limits := l) (ν := ν) (norm := .falseSpace) (B := Never)
      (fun nm hgn hpn => Or.inl (hok y l nm hgn hpn)) (trivial : (Pdf.Norm.falseSpace : Pdf.Norm P).Good μ)
    have h3 : callP m.part y l .falseSpace = h.call y l .falseSpace := by rw [hp]; rfl
    unfold Impl.callPartial
    rw [h3]
    rcases h2 with hc | ⟨e, hc, (he | ⟨_, n, hn⟩) | ⟨rfl, hl⟩⟩
    · rw [hc]; exact .inl rfl
    · exact he.elim
    · cases hn
    · rw [hc]; exact .inr ⟨_, rfl, .inr ⟨rfl, hl⟩⟩
  have := (overPieces_ans (A := fun _ => Never) (limits := limits) hcall (fun h => h) (fun _ _ _ h => h)).ok
  unfold Impl.partialIntegrate
  rw [this]
  rfl

/-- C138 (partial): the same with analytic integrals registered for the limits and for each of their pieces. Missing from the full claim:
the cases of `partial_pieces_violated`. -/
theorem partial_pieces_analytic_partial (hm : Honest m f μ ν) (hpos : m.base.logPdf = none ∨ ∀ x, 0 < f x)
    (hans : Answering m μ ν) (y : Y) (limits : List Q) (hr : (m.registered limits).isSome = true)
    (hq : ∀ q ∈ limits, (m.registered [q]).isSome = true) :
    m.partialIntegrate y limits .falseSpace = .ok ((limits.map (ν y)).sum) := by
  have hgood : (Pdf.Norm.falseSpace : Pdf.Norm P).Good μ := trivial
  have hnone : ∀ {A : Err → Prop} {e : Err}, OrNorm A (Pdf.Norm.falseSpace : Pdf.Norm P) e → A e := by
    rintro A e (h | ⟨_, n, h⟩)
    · exact h
    · cases h
  -- the registered integral for the limits answers or asks for single pieces
  have hcall : ∀ l : List Q, (m.registered l).isSome = true →
      Ans (OrMulti Never l) (m.callAnalytic y l .falseSpace) (partialOf ν μ y l .falseSpace) := by
    intro l hl
    obtain ⟨h, hh⟩ := Option.isSome_iff_exists.1 hl
    have hri : Ans (OrMulti Never l) (m.registeredIntegral y l .falseSpace) (partialOf ν μ y l .falseSpace) := by
      unfold Impl.registeredIntegral
      rw [hh]
      rcases PHook.call_ans (h := h) (y := y) (limits := l) (ν := ν) (B := Never)
        (fun nm hgn hp => Or.inl (hans l h hh y nm hgn hp)) hgood with hc | ⟨e, hc, he | ⟨rfl, hlen⟩⟩
      · simp only [hc, suppress]; exact .inl rfl
      · exact (hnone he).elim
      · simp only [hc, suppress]; exact .inr ⟨_, rfl, .inr ⟨rfl, hlen⟩⟩
    unfold Impl.callAnalytic
    refine suppress_ans (callP_ans (B := NotAnalytic) (.inl rfl) (fun h hh => hm.analytic h hh y l) hgood) hri ?_
      (fun e he => he)
    rintro e (he | he)
    · rcases hnone he with rfl | rfl
      · exact .inl rfl
      · exact .inl rfl
    · exact .inr (.inr he)
  have hone : ∀ q ∈ limits, Ans Never (m.callAnalytic y [q] .falseSpace) (partialOf ν μ y [q] .falseSpace) := fun q hmem =>
    (hcall [q] (hq q hmem)).mono (fun e he => he.elim id (fun h => absurd h.2 (by simp)))
  have hpieces : overPieces m.callAnalytic y limits .falseSpace = .ok (partialOf ν μ y limits .falseSpace) := by
    unfold overPieces
    rcases hcall limits hr with hc | ⟨e, hc, he | ⟨rfl, _⟩⟩
    · rw [hc]
    · exact he.elim
    · rw [hc]
      simp only
      rcases mapM_ans _ _ limits hone with h | ⟨e, _, he⟩
      · rw [h, except_bind_ok, partialOf_pieces]; rfl
      · exact he.elim
  have han : m.partialAnalytic y limits .falseSpace = .ok (partialOf ν μ y limits .falseSpace) := by
    unfold Impl.partialAnalytic
    rw [hpieces]
  have hpart : overPieces m.callPartial y limits .falseSpace = .ok (partialOf ν μ y limits .falseSpace) := by
    have hfirst : Ans (OrMulti Never limits) (m.callPartial y limits .falseSpace) (partialOf ν μ y limits .falseSpace) := by
      unfold Impl.callPartial
      refine suppress_ans (callP_ans (B := NotImpl) rfl (fun h hh => hm.part h hh y limits) hgood)
        (C := Never) ?_ ?_ (fun e he => he.elim)
      · rw [han]; exact .inl rfl
      · rintro e (he | he)
        · exact .inl (isFNI_iff.2 (show NotImpl e from hnone he))
        · exact .inr (.inr he)
    unfold overPieces
    rcases hfirst with hc | ⟨e, hc, he | ⟨rfl, _⟩⟩
    · rw [hc]
    · exact he.elim
    · rw [hc]
      simp only
      rcases mapM_ans (A := Never) _ (fun q => partialOf ν μ y [q] (.falseSpace : Pdf.Norm P)) limits (fun q _ =>
        (callPartial_answers hm hpos hans y q hgood).mono (fun e he => hnone he)) with h | ⟨e, _, he⟩
      · rw [h, except_bind_ok, partialOf_pieces]; rfl
      · exact he.elim
  unfold Impl.partialIntegrate
  rw [hpart]
  rfl

/-- C138, refuted: a PDF without analytic partial integral and without `_partial_integrate` refuses every partial integral
over limits that are not a single piece, although the integral over each single piece is returned: the numeric integration raises
`ValueError`, which is not the exception after which the pieces are integrated one by one. -/
theorem partial_pieces_violated (hm : Honest m f μ ν) (hpos : m.base.logPdf = none ∨ ∀ x, 0 < f x) (hp : m.part = none)
    (ha : m.analytic = none) (hr : ∀ l, m.registered l = none) (y : Y) (limits : List Q) (hl : limits.length ≠ 1) :
    (∀ q ∈ limits, m.partialIntegrate y [q] .falseSpace = .ok (ν y q)) ∧
    m.partialIntegrate y limits .falseSpace = .error .valueError ∧
    ∀ n : List P, m.partialIntegrate y limits (.range n) = .error .valueError := by
  have hauto : ∀ norm : Pdf.Norm P, (∀ n, norm ≠ .range n) →
      m.autoNumeric m.base.rawPdf y limits norm = .error .valueError := by
    intro norm hn
    cases norm with
    | range n => exact absurd rfl (hn n)
    | falseSpace =>
      match limits, hl with
      | [], _ => rfl
      | [q], hl => exact absurd rfl hl
      | a :: b :: l, _ => rfl
    | pyFalse =>
      match limits, hl with
      | [], _ => rfl
      | [q], hl => exact absurd rfl hl
      | a :: b :: l, _ => rfl
  have han : ∀ norm : Pdf.Norm P, m.partialAnalytic y limits norm = .error .analyticNotImplemented := by
    intro norm
    have : m.callAnalytic y limits norm = .error .analyticNotImplemented := by
      simp [Impl.callAnalytic, Impl.registeredIntegral, callP, ha, hr, suppress, isFNI]
    simp [Impl.partialAnalytic, overPieces, this]
  have hcall : ∀ norm : Pdf.Norm P, m.callPartial y limits norm = m.autoNumeric m.base.rawPdf y limits norm := by
    intro norm
    have hne : ∀ e, m.autoNumeric m.base.rawPdf y limits norm = .error e → isFNI e = false := by
      intro e he
      cases norm with
      | range n => cases he; rfl
      | falseSpace => rw [hauto _ (fun n h => (by cases h))] at he; cases he; rfl
      | pyFalse => rw [hauto _ (fun n h => (by cases h))] at he; cases he; rfl
    unfold Impl.callPartial
    rw [hp, han]
    simp only [callP, suppress, isFNI, isAnalytic, Impl.fallback, hr]
    simp only [decide_true, if_true]
    cases hc : m.autoNumeric m.base.rawPdf y limits norm with
    | ok r => rfl
    | error e =>
      have := hne e hc
      simp only [isFNI] at this
      simp [this]
  have hfalse : ∀ norm : Pdf.Norm P, (∀ n, norm ≠ .range n) →
      overPieces m.callPartial y limits norm = .error .valueError := by
    intro norm hn
    unfold overPieces
    rw [hcall, hauto norm hn]
  refine ⟨?_, ?_, ?_⟩
  · intro q _
    exact (partial_integral_single hm hpos (fun l h hh => by rw [hr] at hh; cases hh) y q).1
  · unfold Impl.partialIntegrate
    rw [hfalse _ (fun n h => (by cases h))]
  · intro n
    have h1 : overPieces m.callPartial y limits (.range n) = .error .normNotImplemented := by
      unfold overPieces
      rw [hcall]
      rfl
    unfold Impl.partialIntegrate
    rw [h1]
    simp only
    rw [hfalse _ (fun n h => (by cases h))]
    rfl

/-- C139 (partial): if `_partial_numeric_integrate` is overridden, answers, and supports every normalisation (or none is
asked for), `partial_numeric_integrate` gives the partial integral. Missing from the full claim: the cases of `partial_numeric_violated`. -/
theorem partial_numeric_partial (h : PHook Y P Q) (hp : m.numeric = some h)
    (hok : ∀ y limits norm, norm.Good μ → h.Passes norm → h.impl (y, limits) norm = .ok (partialOf ν μ y limits norm))
    (y : Y) (limits : List Q) (norm : Pdf.Norm P) (hg : norm.Good μ) (hn : h.all = true ∨ ∀ n, norm ≠ .range n) :
    m.partialNumeric y limits norm = .ok (partialOf ν μ y limits norm) := by
  have hcall : ∀ l : List Q, Ans (OrMulti Never l) (m.callNumeric y l norm) (partialOf ν μ y l norm) := by
    intro l
    have h2 := PHook.call_ans (h := h) (y := y) (limits := l) (ν := ν) (norm := norm) (B := Never)
      (fun nm hgn hpn => Or.inl (hok y l nm hgn hpn)) hg
    unfold Impl.callNumeric
    rw [hp]
    rcases h2 with hc | ⟨e, hc, (he | ⟨rfl, n, rfl⟩) | ⟨rfl, hl⟩⟩
    · simp only [hc, suppress]; exact .inl rfl
    · exact he.elim
    · exfalso
      rcases hn with hn | hn
      · have : h.call y l (.range n) = .ok (partialOf ν μ y l (.range n)) ∨
            h.call y l (.range n) = .error .multipleLimitsNotImplemented := by
          unfold PHook.call
          split
          · exact .inr rfl
          · left
            show (if h.all || h.norms n then h.impl (y, l) (.range n) else _) = _
            rw [hn]
            exact hok y l _ hg (.inl hn)
        rcases this with h' | h' <;> rw [hc] at h' <;> cases h'
      · exact hn n rfl
    · simp only [hc, suppress]; exact .inr ⟨_, rfl, .inr ⟨rfl, hl⟩⟩
  have := (overPieces_ans (A := fun _ => Never) (limits := limits) hcall (fun h => h) (fun _ _ _ h => h)).ok
  unfold Impl.partialNumeric
  rw [this]

/-- C139, refuted: for a PDF that does not override `_partial_numeric_integrate`, `partial_numeric_integrate` raises
`TypeError` for every event, limits and normalisation: the method of the base class cannot be called.  And if it is
overridden with `@supports()`, it still raises for every normalisation range (also the default one). -/
theorem partial_numeric_violated :
    (∀ (m : Impl X Y P Q), m.numeric = none → ∀ y limits norm, m.partialNumeric y limits norm = .error .typeError) ∧
    ∀ (m : Impl X Y P Q) (h : PHook Y P Q), m.numeric = some h → h.all = false → (∀ n, h.norms n = false) →
      ∀ y limits n, ∃ e, m.partialNumeric y limits (.range n) = .error e := by
  refine ⟨?_, ?_⟩
  · intro m hn y limits norm
    simp [Impl.partialNumeric, overPieces, Impl.callNumeric, hn]
  · intro m h hm ha hn y limits n
    unfold Impl.partialNumeric
    cases hc : overPieces m.callNumeric y limits (.range n) with
    | ok v =>
      exfalso
      -- every call with a range is refused
      have hcall : ∀ l : List Q, (∃ e, m.callNumeric y l (.range n) = .error e) := by
        intro l
        unfold Impl.callNumeric PHook.call
        rw [hm]
        by_cases hmul : (!h.multi && decide (l.length > 1)) = true
        · simp [hmul, suppress, isFNI]
        · simp [hmul, suppress, NHook.call, ha, hn, isFNI]
      unfold overPieces at hc
      obtain ⟨e, he⟩ := hcall limits
      rw [he] at hc
      by_cases hem : e = .multipleLimitsNotImplemented
      · subst hem
        simp only at hc
        match limits with
        | [] =>
          have : m.callNumeric y [] (.range n) = .error .normNotImplemented := by
            unfold Impl.callNumeric PHook.call
            rw [hm]
            simp [suppress, NHook.call, ha, hn, isFNI]
          rw [this] at he
          cases he
        | q :: l =>
          obtain ⟨e', he'⟩ := hcall [q]
          rw [List.mapM_cons, he'] at hc
          cases hc
      · split at hc
        · rename_i heq; cases heq; exact hem rfl
        · cases hc
    | error e =>
      by_cases hem : e = .normNotImplemented
      · subst hem
        simp only
        cases overPieces m.callNumeric y limits .pyFalse with
        | ok v => exact ⟨_, rfl⟩
        | error e => exact ⟨_, rfl⟩
      · refine ⟨e, ?_⟩
        split
        · rename_i heq; cases heq; exact absurd rfl hem
        · rfl

/-! ### Non-vacuity: the density `y` in two observables `(x, y)`; `x` is integrated over. -/

/-- The integral of `y` over a rectangle. -/
noncomputable def exMu (p : (ℝ × ℝ) × (ℝ × ℝ)) : ℝ := (p.1.2 - p.1.1) * ((p.2.2 ^ 2 - p.2.1 ^ 2) / 2)

/-- The integral over `x` at `y`. -/
def exNu (y : ℝ) (q : ℝ × ℝ) : ℝ := y * (q.2 - q.1)

/-- only `_unnormalized_pdf` -/
noncomputable def exBase : Pdf.Impl (ℝ × ℝ) ((ℝ × ℝ) × (ℝ × ℝ)) where
  pdf := none
  logPdf := none
  extPdf := none
  yield := none
  unnorm := some (fun x => .ok x.2)
  normalization := none
  integrate := none
  analytic := none
  registered := fun _ => none
  numeric := none
  numInt := fun _ limits => .ok (total exMu limits)

noncomputable def exPlain : Impl (ℝ × ℝ) ℝ ((ℝ × ℝ) × (ℝ × ℝ)) (ℝ × ℝ) where
  base := exBase
  part := none
  analytic := none
  registered := fun _ => none
  numeric := none
  numInt := fun _ y q => .ok (exNu y q)

/-- with a partial analytic integral for any limits, for single pieces and without normalisation -/
noncomputable def exAnalytic : Impl (ℝ × ℝ) ℝ ((ℝ × ℝ) × (ℝ × ℝ)) (ℝ × ℝ) :=
  { exPlain with
    registered := fun _ => some ⟨⟨fun _ => false, false, fun a _ => .ok (total (exNu a.1) a.2)⟩, false⟩ }

theorem exBase_honest : Pdf.Honest exBase (fun x => x.2) exMu where
  pdf := by intro h hh; cases hh
  logPdf := by intro h hh; cases hh
  extPdf := by intro h y hh; cases hh
  yield := by rintro y hy; cases hy
  complete := .inl (fun _ => rfl)
  normalization := by intro h hh; cases hh
  integrate := by intro h hh; cases hh
  analytic := by intro h hh; cases hh
  registered := by intro l h hh; cases hh
  numeric := by intro h hh; cases hh
  numInt := fun _ _ _ => .inl rfl

theorem exPlain_honest : Honest exPlain (fun x => x.2) exMu exNu where
  base := exBase_honest
  part := by intro h hh; cases hh
  analytic := by intro h hh; cases hh
  registered := by intro l h hh; cases hh
  numeric := by intro h hh; cases hh
  numInt := fun _ _ _ _ => rfl

theorem exAnalytic_answering : Answering exAnalytic exMu exNu := by
  rintro l h hh y norm - hp
  cases hh
  cases norm with
  | range n => rcases hp with hp | hp <;> cases hp
  | falseSpace => cases hp
  | pyFalse => rfl

theorem exAnalytic_honest : Honest exAnalytic (fun x => x.2) exMu exNu where
  base := exBase_honest
  part := by intro h hh; cases hh
  analytic := by intro h hh; cases hh
  registered := fun l h hh y norm hg hp => .inl (exAnalytic_answering l h hh y norm hg hp)
  numeric := by intro h hh; cases hh
  numInt := fun _ _ _ _ => rfl

example : exPlain.partialIntegrate 5 [(1, 3)] (.range [((0, 4), (0, 2))]) = .ok (10 / 8) := by
  rw [(partial_integral_single exPlain_honest (.inl rfl) (by intro l h hh; cases hh) 5 (1, 3)).2 _ (by norm_num [total, exMu])]
  norm_num [exNu, total, exMu]

/-- Several pieces with an analytic integral: the sum. -/
example : exAnalytic.partialIntegrate 5 [(0, 1), (2, 4)] .falseSpace = .ok 15 := by
  rw [partial_pieces_analytic_partial exAnalytic_honest (.inl rfl) exAnalytic_answering 5 _ rfl (fun _ _ => rfl)]
  norm_num [exNu]

example : exPlain.partialIntegrate 5 [(0, 1), (2, 4)] .falseSpace = .error .valueError :=
  (partial_pieces_violated exPlain_honest (.inl rfl) rfl rfl (fun _ => rfl) 5 _ (by simp)).2.1

example : exPlain.partialNumeric 5 [(0, 1)] .falseSpace = .error .typeError := partial_numeric_violated.1 _ rfl _ _ _

end Zfit.Part
