import Verif.Pdf.Props

/-! C199: `ext_log_pdf` (zfit/core/basepdf.py:377-432).  The hook `_ext_log_pdf` is given separately from the other overridden
methods of the PDF, as nothing else uses it. -/

namespace Zfit.Pdf

open Zfit

variable {X P : Type} {μ : P → ℝ} {f : X → ℝ} {m : Impl X P}

/-- `_auto_ext_log_pdf` (basepdf.py:421-428). -/
noncomputable def Impl.autoExtLogPdf (m : Impl X P) (hook : Option (NHook X P)) (x : X) (norm : Norm P) : Except Err ℝ :=
  match callN hook x norm with
  | .error .normNotImplemented =>
    match norm with
    | .range n => do
      let u ← callN hook x .pyFalse
      let t ← m.logNormalization n
      return u - t
    | _ => .error .attributeError
  | r => r

/-- `ext_log_pdf` (basepdf.py:405-419); the fallback calls the public `log_pdf`. -/
noncomputable def Impl.evalExtLogPdf (m : Impl X P) (hook : Option (NHook X P)) (x : X) (norm : Norm P) : Except Err ℝ :=
  match m.yield with
  | none => .error .notExtended
  | some y => suppress isFNI (m.autoExtLogPdf hook x norm) ((m.evalLogPdf x norm).map (· + Real.log y))

/-- The hook gives the logarithm of yield times density wherever it is called, or says that it is not implemented. -/
def LogHonest (hook : Option (NHook X P)) (f : X → ℝ) (μ : P → ℝ) (y : ℝ) : Prop :=
  ∀ h, hook = some h → ∀ x norm, 0 < f x → norm.Good μ → h.Passes norm → Ans NotImpl (h.impl x norm) (Real.log (y * density f μ x norm))

/-- C199, in part: `ext_log_pdf` is the logarithm of `ext_pdf` for a positive yield and density, if `_ext_log_pdf`, `_log_pdf` and `_pdf`
are not overridden or their decorator accepts the normalisation range; without a yield both are refused.  Missing: overridden with
`supports()`, see `ext_log_pdf_violated`. -/
theorem ext_log_pdf_partial (hm : Honest m f μ) (hpos : ∀ x, 0 < f x) (x : X) (n : List P) (hn : 0 < total μ n)
    (hook : Option (NHook X P))
    (he : ∀ h, hook = some h → h.all = true ∨ h.norms n = true)
    (hl : ∀ h, m.logPdf = some h → h.all = true ∨ h.norms n = true)
    (hp : ∀ h, m.pdf = some h → h.all = true ∨ h.norms n = true) :
    (∀ y, m.yield = some y → 0 < y → LogHonest hook f μ y →
      ∃ v, m.evalExtPdf x (.range n) = .ok v ∧ 0 < v ∧ m.evalExtLogPdf hook x (.range n) = .ok (Real.log v)) ∧
    (m.yield = none → m.evalExtPdf x (.range n) = .error .notExtended ∧ m.evalExtLogPdf hook x (.range n) = .error .notExtended) := by
  refine ⟨fun y hy hy0 hh => ⟨_, (extended_scales hm (.inr hpos) y hy x [] n hn).1, mul_pos (div_pos (hpos x) hn) hy0, ?_⟩,
    fun hy => ⟨(not_extended_raises hy x [] (.range n)).1, by unfold Impl.evalExtLogPdf; rw [hy]⟩⟩
  unfold Impl.evalExtLogPdf
  rw [hy]
  simp only
  apply Ans.ok
  have hauto : Ans NotImpl (m.autoExtLogPdf hook x (.range n)) (Real.log (f x / total μ n * y)) := by
    unfold Impl.autoExtLogPdf
    cases hk : hook with
    | none => exact .inr ⟨_, rfl, rfl⟩
    | some h =>
      have := hh h hk x (.range n) (hpos x) hn (he h hk)
      have hcall : callN (some h) x (.range n) = h.impl x (.range n) := by
        unfold callN NHook.call
        simp only
        rw [if_pos (by simpa using he h hk)]
      rw [hcall]
      rcases this with hr | ⟨e, hr, heq⟩
      · rw [hr]; left; simp only [density, mul_comm]
      · rw [hr, heq]; exact .inr ⟨_, rfl, rfl⟩
  refine suppress_ans hauto (C := Never) ?_ (fun e he => .inl (isFNI_iff.2 he)) (fun e he => he)
  obtain ⟨v, hv, hlog⟩ := log_pdf_value_partial hm hpos x n hn hl hp
  rw [(pdf_value hm (.inr hpos) x).2 n hn] at hv
  cases hv
  left
  rw [hlog, Real.log_mul (div_pos (hpos x) hn).ne' hy0.ne']
  rfl

/-- C199 is violated for every extended PDF whose `_ext_log_pdf` is decorated with `supports()`: the *integral* instead of its logarithm
is subtracted (`log_normalization` returns the normalisation, basepdf.py:600-602), which is never right. -/
theorem ext_log_pdf_violated (hm : Honest m f μ) (hpos : ∀ x, 0 < f x) (x : X) (n : List P) (hn : 0 < total μ n) (y : ℝ)
    (hy : m.yield = some y) (hy0 : 0 < y) (h : NHook X P) (hall : h.all = false) (hnorm : h.norms n = false)
    (hans : h.impl x .pyFalse = .ok (Real.log (y * f x))) :
    m.evalExtLogPdf (some h) x (.range n) = .ok (Real.log (y * f x) - total μ n) ∧
    ∀ v, m.evalExtPdf x (.range n) = .ok v → m.evalExtLogPdf (some h) x (.range n) ≠ .ok (Real.log v) := by
  have key : m.evalExtLogPdf (some h) x (.range n) = .ok (Real.log (y * f x) - total μ n) := by
    have h1 : callN (some h) x (.range n) = .error .normNotImplemented := by simp [callN, NHook.call, hall, hnorm]
    have h2 : callN (some h) x .pyFalse = .ok (Real.log (y * f x)) := by simp [callN, NHook.call, hans]
    unfold Impl.evalExtLogPdf Impl.autoExtLogPdf
    rw [hy, h1]
    simp only
    rw [h2, except_bind_ok]
    unfold Impl.logNormalization
    rw [normalizationOver_ok hm (.inr hpos) hn]
    rfl
  refine ⟨key, ?_⟩
  intro v hv
  rw [(extended_scales hm (.inr hpos) y hy x [] n hn).1] at hv
  cases hv
  rw [key]
  intro heq
  have := Except.ok.inj heq
  have hfx := hpos x
  rw [show f x / total μ n * y = y * f x / total μ n by ring, Real.log_div (mul_pos hy0 hfx).ne' hn.ne'] at this
  have hlt := Real.log_le_sub_one_of_pos hn
  linarith

/-- the flat density 3 with yield 5, without the hook and with a hook that supports every normalisation -/
example : exPlain.evalExtLogPdf none 1 (.range [(0, 2)]) = .ok (Real.log (5 / 2)) ∧
    exPlain.evalExtLogPdf (some ⟨fun _ => true, true, fun x norm => .ok (Real.log (5 * density (fun _ => 3) (fun p => 3 * (p.2 - p.1)) x norm))⟩)
      1 (.range [(0, 2)]) = .ok (Real.log (5 / 2)) := by
  constructor
  · obtain ⟨v, h1, _, h2⟩ := (ext_log_pdf_partial exPlain_honest (fun _ => by norm_num) 1 [(0, 2)] (by norm_num [total]) none
      (by intro h hh; cases hh) (by intro h hh; cases hh) (by intro h hh; cases hh)).1 5 rfl (by norm_num) (by intro h hh; cases hh)
    rw [(extended_scales exPlain_honest (.inl rfl) 5 rfl 1 [] [(0, 2)] (by norm_num [total])).1] at h1
    cases h1
    rw [h2]; norm_num [total]
  · obtain ⟨v, h1, _, h2⟩ := (ext_log_pdf_partial exPlain_honest (fun _ => by norm_num) 1 [(0, 2)] (by norm_num [total])
      (some ⟨fun _ => true, true, fun x norm => .ok (Real.log (5 * density (fun _ => 3) (fun p => 3 * (p.2 - p.1)) x norm))⟩)
      (by intro h hh; cases hh; exact .inl rfl) (by intro h hh; cases hh) (by intro h hh; cases hh)).1 5 rfl (by norm_num)
        (by intro h hh x norm _ _ _; cases hh; exact .inl rfl)
    rw [(extended_scales exPlain_honest (.inl rfl) 5 rfl 1 [] [(0, 2)] (by norm_num [total])).1] at h1
    cases h1
    rw [h2]; norm_num [total]

/-- the violating hook exists -/
example : exPlain.evalExtLogPdf (some ⟨fun _ => false, false, fun _ _ => .ok (Real.log (5 * 3))⟩) 1 (.range [(0, 2)]) = .ok (Real.log (5 * 3) - 6) := by
  rw [(ext_log_pdf_violated exPlain_honest (fun _ => by norm_num) 1 [(0, 2)] (by norm_num [total]) 5 rfl (by norm_num) _ rfl rfl rfl).1]
  norm_num [total]

end Zfit.Pdf
