import Verif.BinPdf.HookModel

/-!
# C37: the hooks of binned PDFs
-/

namespace Zfit.BinPdf

open Zfit Zfit.Bin

/-! ## Specification -/

/-- The method ends with this value or exception, however deep the calls may go. -/
def EndsA (p : BPdf) (r : ReqA) (v : Except Err Arr) : Prop := ∃ n, ∀ m, n ≤ m → p.runA m r = some v

/-- The method ends with this number or exception. -/
def EndsN (p : BPdf) (r : ReqN) (v : Except Err Rat) : Prop := ∃ n, ∀ m, n ≤ m → p.runN m r = some v

/-- For these relative counts all the public quantities fit together: density = relative counts / area, counts = relative counts
times yield, extended density = density times yield. -/
def Consistent (p : BPdf) (norm : Option Box) (rel : Arr) : Prop :=
  EndsA p (.relCounts norm) (.ok rel) ∧
  EndsA p (.pdf norm) (.ok (fun i => rel i / p.area i)) ∧
  ∀ y, p.yield = some y →
    EndsA p (.counts norm) (.ok (fun i => rel i * y)) ∧
    EndsA p (.extPdf norm) (.ok (fun i => rel i / p.area i * y))

/-- A hook that can only evaluate without normalisation, giving `u`. -/
def NoNorm (f : Option Box → Except Err Arr) (u : Arr) : Prop :=
  f none = .ok u ∧ ∀ n, f (some n) = .error .normNotImplemented

/-! ## Results are unique -/

theorem EndsA.unique {p : BPdf} {r : ReqA} {v w : Except Err Arr} (h : EndsA p r v) (h' : EndsA p r w) : v = w := by
  obtain ⟨n, hn⟩ := h
  obtain ⟨m, hm⟩ := h'
  have h1 := hn (max n m) (le_max_left _ _)
  have h2 := hm (max n m) (le_max_right _ _)
  rw [h1] at h2
  exact Option.some.inj h2

theorem EndsN.unique {p : BPdf} {r : ReqN} {v w : Except Err Rat} (h : EndsN p r v) (h' : EndsN p r w) : v = w := by
  obtain ⟨n, hn⟩ := h
  obtain ⟨m, hm⟩ := h'
  have h1 := hn (max n m) (le_max_left _ _)
  have h2 := hm (max n m) (le_max_right _ _)
  rw [h1] at h2
  exact Option.some.inj h2

/-- Depth `k` suffices. -/
theorem endsA_of {p : BPdf} {r : ReqA} {v : Except Err Arr} (k : Nat) (h : ∀ m, p.runA (m + k) r = some v) : EndsA p r v :=
  ⟨k, fun m hm => by obtain ⟨j, rfl⟩ := Nat.exists_eq_add_of_le' hm; exact h j⟩

theorem endsN_of {p : BPdf} {r : ReqN} {v : Except Err Rat} (k : Nat) (h : ∀ m, p.runN (m + k) r = some v) : EndsN p r v :=
  ⟨k, fun m hm => by obtain ⟨j, rfl⟩ := Nat.exists_eq_add_of_le' hm; exact h j⟩

/-! ## C37 -/

/-- C37: whatever else the class implements, a hook that answers for the requested norm determines the public result. -/
theorem binned_hooks_honoured (p : BPdf) (norm : Option Box) (v : Arr) :
    (∀ f, p.pdf = some f → f norm = .ok v → EndsA p (.pdf norm) (.ok v)) ∧
    (∀ f, p.extPdf = some f → f norm = .ok v → EndsA p (.extPdf norm) (.ok v)) ∧
    (∀ f, p.counts = some f → f norm = .ok v → EndsA p (.counts norm) (.ok v)) ∧
    (∀ f, p.relCounts = some f → f norm = .ok v → EndsA p (.relCounts norm) (.ok v)) := by
  refine ⟨?_, ?_, ?_, ?_⟩ <;>
  · intro f hf hv
    refine endsA_of 1 (fun m => ?_)
    simp [BPdf.runA, BPdf.stepA, hf, hv, autoNorm, callHook, suppress]

/-- C37: also the integration hooks, for the limits they accept. -/
theorem binned_integration_hooks_honoured (p : BPdf) (limits : List Box) (norm : Option Box) (v : Rat) :
    (∀ f, p.integrate = some f → f limits norm = .ok v → EndsN p (.integrate limits norm) (.ok v)) ∧
    (∀ f, p.extIntegrate = some f → f limits norm = .ok v → EndsN p (.extIntegrate limits norm) (.ok v)) := by
  refine ⟨?_, ?_⟩ <;>
  · intro f hf hv
    refine endsN_of 2 (fun m => ?_)
    simp [BPdf.runN, BPdf.stepN, hf, hv, suppress]

/-- C37: an exception of a hook other than the control flow ones is not swallowed. -/
theorem binned_hook_errors_propagate (p : BPdf) (norm : Option Box) (e : Err) (he : e ≠ .functionNotImplemented)
    (he' : e ≠ .normNotImplemented) :
    (∀ f, p.pdf = some f → f norm = .error e → EndsA p (.pdf norm) (.error e)) ∧
    (∀ f, p.extPdf = some f → f norm = .error e → EndsA p (.extPdf norm) (.error e)) ∧
    (∀ f, p.counts = some f → f norm = .error e → EndsA p (.counts norm) (.error e)) ∧
    (∀ f, p.relCounts = some f → f norm = .error e → EndsA p (.relCounts norm) (.error e)) := by
  refine ⟨?_, ?_, ?_, ?_⟩ <;>
  · intro f hf hv
    refine endsA_of 1 (fun m => ?_)
    cases e <;> first
      | exact absurd rfl he
      | exact absurd rfl he'
      | simp [BPdf.runA, BPdf.stepA, hf, hv, autoNorm, callHook, suppress]

/-- A class that implements only the relative counts and supports the norm: everything is derived consistently. -/
theorem only_rel_counts (p : BPdf) (f : Option Box → Except Err Arr) (hf : p.relCounts = some f) (h1 : p.pdf = none)
    (h2 : p.extPdf = none) (h3 : p.counts = none) (norm : Option Box) (rel : Arr) (hv : f norm = .ok rel) :
    Consistent p norm rel := by
  refine ⟨endsA_of 1 (fun m => ?_), endsA_of 2 (fun m => ?_), fun y hy => ⟨endsA_of 1 (fun m => ?_), endsA_of 3 (fun m => ?_)⟩⟩ <;>
    simp [BPdf.runA, BPdf.stepA, hf, hv, h1, h2, h3, autoNorm, callHook, suppress, M.bind', BPdf.overArea, BPdf.timesYield,
      BPdf.getYield, *]

/-- The same if the hook does not support the norm: the relative counts are divided by their integral over the norm. -/
theorem only_rel_counts_unnormalised (p : BPdf) (f : Option Box → Except Err Arr) (hf : p.relCounts = some f)
    (h1 : p.pdf = none) (h2 : p.extPdf = none) (h3 : p.counts = none) (h4 : p.integrate = none) (n : Box) (u : Arr)
    (hu : NoNorm f u) :
    Consistent p (some n) (fun i => u i / rectIntegration ⟨p.shape, u⟩ p.edges n) := by
  have hnone := hu.1
  have hsome := hu.2 n
  refine ⟨endsA_of 5 (fun m => ?_), endsA_of 6 (fun m => ?_), fun y hy => ⟨endsA_of 5 (fun m => ?_), endsA_of 7 (fun m => ?_)⟩⟩ <;>
    simp [BPdf.runA, BPdf.runN, BPdf.stepA, BPdf.stepN, hf, hnone, hsome, h1, h2, h3, h4, autoNorm, callHook, suppress, M.bind',
      BPdf.overArea, BPdf.timesYield, BPdf.getYield, BPdf.rect, *]

/-- A class that implements only the counts (an extended pdf with non-zero yield). -/
theorem only_counts (p : BPdf) (f : Option Box → Except Err Arr) (hf : p.counts = some f) (h1 : p.pdf = none)
    (h2 : p.extPdf = none) (h3 : p.relCounts = none) (norm : Option Box) (c : Arr) (hv : f norm = .ok c) (y : Rat)
    (hy : p.yield = some y) (hy0 : y ≠ 0) : Consistent p norm (fun i => c i / y) := by
  have e1 : (fun i => c i / y * y) = c := by funext i; exact div_mul_cancel₀ _ hy0
  have e2 : (fun i => c i / y / p.area i * y) = fun i => c i / p.area i := by
    funext i
    rw [div_right_comm, div_mul_cancel₀ _ hy0]
  refine ⟨endsA_of 1 (fun m => ?_), endsA_of 2 (fun m => ?_), fun y' hy' => ?_⟩
  · simp [BPdf.runA, BPdf.stepA, hf, hv, h3, autoNorm, callHook, suppress, M.bind', BPdf.overYield, BPdf.getYield, hy]
  · simp [BPdf.runA, BPdf.stepA, hf, hv, h1, h3, autoNorm, callHook, suppress, M.bind', BPdf.overYield, BPdf.overArea,
      BPdf.getYield, hy]
  · obtain rfl : y = y' := Option.some.inj (hy.symm.trans hy')
    rw [e1, e2]
    refine ⟨endsA_of 1 (fun m => ?_), endsA_of 3 (fun m => ?_)⟩ <;>
      simp [BPdf.runA, BPdf.stepA, hf, hv, h2, h3, autoNorm, callHook, suppress, M.bind', BPdf.overArea]

/-- A class that implements only the density: relative counts and extended density follow, but (see below) not the counts. Missing from the
full claim: the cases of `only_pdf_counts_violated`, `only_unnormalized_pdf_violated`, `ext_integrate_pieces_violated`,
`sample_hook_violated`, `create_sampler_params_violated`. -/
theorem only_pdf_partial (p : BPdf) (f : Option Box → Except Err Arr) (hf : p.pdf = some f) (h2 : p.extPdf = none)
    (h3 : p.counts = none) (h4 : p.relCounts = none) (norm : Option Box) (d : Arr) (hv : f norm = .ok d) :
    EndsA p (.pdf norm) (.ok d) ∧ EndsA p (.relCounts norm) (.ok (fun i => d i * p.area i)) ∧
    ∀ y, p.yield = some y → EndsA p (.extPdf norm) (.ok (fun i => d i * y)) := by
  refine ⟨endsA_of 1 (fun m => ?_), endsA_of 2 (fun m => ?_), fun y hy => endsA_of 3 (fun m => ?_)⟩ <;>
    simp [BPdf.runA, BPdf.stepA, hf, hv, h2, h3, h4, autoNorm, callHook, suppress, M.bind', BPdf.timesYield, BPdf.overYield,
      BPdf.overArea, BPdf.getYield, *]

/-- C37 is violated: an extended pdf that implements only the density has no counts: the exception that means "not
implemented by the class" reaches the user instead of density times area times yield. -/
theorem only_pdf_counts_violated (p : BPdf) (h3 : p.counts = none) (h4 : p.relCounts = none) (norm : Option Box) :
    EndsA p (.counts norm) (.error .functionNotImplemented) := by
  refine endsA_of 1 (fun m => ?_)
  simp [BPdf.runA, BPdf.stepA, h3, h4, autoNorm, callHook, suppress, M.bind', BPdf.timesYield]

/-- C37 is violated: a pdf that implements only `_unnormalized_pdf`, the hook named in the documentation of unbinned pdfs, is
never evaluated: `pdf` and `rel_counts` call each other without end. -/
theorem only_unnormalized_pdf_violated (p : BPdf) (h1 : p.pdf = none) (h3 : p.counts = none) (h4 : p.relCounts = none)
    (norm : Option Box) (fuel : Nat) : p.runA fuel (.pdf norm) = none ∧ p.runA fuel (.relCounts norm) = none := by
  induction fuel with
  | zero => exact ⟨by simp [BPdf.runA], by simp [BPdf.runA]⟩
  | succ n ih =>
    obtain ⟨ih1, ih2⟩ := ih
    constructor
    · simp [BPdf.runA, BPdf.stepA, h1, ih2, autoNorm, suppress, M.bind', BPdf.overArea]
    · simp [BPdf.runA, BPdf.stepA, h3, h4, ih1, autoNorm, callHook, suppress, M.bind', BPdf.overYield]

/-- C37: `integrate` over several pieces, if the hook handles one at a time, is the sum of the integrals. -/
theorem integrate_pieces (p : BPdf) (f : List Box → Option Box → Except Err Rat) (hf : p.integrate = some f) (norm : Option Box)
    (limits : List Box) (hmulti : f limits norm = .error .multipleLimitsNotImplemented) (g : Box → Rat)
    (hone : ∀ b ∈ limits, f [b] norm = .ok (g b)) :
    EndsN p (.integrate limits norm) (.ok (limits.map g).sum) := by
  refine endsN_of 3 (fun m => ?_)
  have hsum : ∀ l : List Box, (∀ b ∈ l, f [b] norm = .ok (g b)) →
      sumPieces (fun b => p.runN (m + 1) (.autoIntegrate [b] norm)) l = some (.ok (l.map g).sum) := by
    intro l hl
    induction l with
    | nil => rfl
    | cons b bs ih =>
      have hb : p.runN (m + 1) (.autoIntegrate [b] norm) = some (.ok (g b)) := by
        simp [BPdf.runN, BPdf.stepN, hf, hl b List.mem_cons_self]
      simp only [sumPieces]
      rw [hb, ih (fun c hc => hl c (List.mem_cons_of_mem _ hc))]
      simp [M.bind']
  have h := hsum limits hone
  have h2 : p.runN (m + 2) (.autoIntegrate limits norm) = some (.ok (limits.map g).sum) := by
    rw [show m + 2 = (m + 1) + 1 from rfl, BPdf.runN]
    simp only [BPdf.stepN, hf, hmulti]
    cases norm <;> exact h
  rw [show m + 3 = (m + 2) + 1 from rfl, BPdf.runN]
  simp only [BPdf.stepN, h2, suppress]

/-- C37 is violated for `ext_integrate`: the pieces are integrated without the yield. -/
theorem ext_integrate_pieces_violated (p : BPdf) (f g : List Box → Option Box → Except Err Rat) (hf : p.extIntegrate = some f)
    (hg : p.integrate = some g) (norm : Option Box) (limits : List Box)
    (hmulti : f limits norm = .error .multipleLimitsNotImplemented) (v : Box → Rat) (hone : ∀ b ∈ limits, g [b] norm = .ok (v b)) :
    EndsN p (.extIntegrate limits norm) (.ok (limits.map v).sum) := by
  refine endsN_of 3 (fun m => ?_)
  have hsum : ∀ l : List Box, (∀ b ∈ l, g [b] norm = .ok (v b)) →
      sumPieces (fun b => p.runN (m + 1) (.autoIntegrate [b] norm)) l = some (.ok (l.map v).sum) := by
    intro l hl
    induction l with
    | nil => rfl
    | cons b bs ih =>
      have hb : p.runN (m + 1) (.autoIntegrate [b] norm) = some (.ok (v b)) := by
        simp [BPdf.runN, BPdf.stepN, hg, hl b List.mem_cons_self]
      simp only [sumPieces]
      rw [hb, ih (fun c hc => hl c (List.mem_cons_of_mem _ hc))]
      simp [M.bind']
  have h := hsum limits hone
  have h2 : p.runN (m + 2) (.autoExtIntegrate limits norm) = some (.ok (limits.map v).sum) := by
    rw [show m + 2 = (m + 1) + 1 from rfl, BPdf.runN]
    simp only [BPdf.stepN, hf, hmulti]
    cases norm <;> exact h
  rw [show m + 3 = (m + 2) + 1 from rfl, BPdf.runN]
  simp only [BPdf.stepN, h2, suppress]

/-- a pdf with yield 10 whose extended integral over a piece is 10 times its length, the plain one the length; the extended integral over
two pieces of length 1 comes out as 2 instead of 20 -/
example :
    let one (k : Rat) : List Box → Option Box → Except Err Rat := fun l _ => match l with
      | [[(a, b)]] => .ok (k * (b - a))
      | _ => .error .multipleLimitsNotImplemented
    let p : BPdf := { edges := [[0, 1, 2]], space := [(0, 2)], norm := [(0, 2)], yield := some 10, integrate := some (one 1), extIntegrate := some (one 10) }
    p.runN 5 (.extIntegrate [[(0, 1)]] none) = some (.ok 10) ∧ p.runN 5 (.extIntegrate [[(0, 1)], [(1, 2)]] none) = some (.ok 2) := by
  decide +kernel

/-- C37 is violated: the events a `_sample` hook draws are thrown away. Whatever it returns, the result is that of a pdf without
the hook; for limits other than the pdf's space it is even an error. -/
theorem sample_hook_violated (p : BPdf) (f : Rat → List Box → Except Err Arr) (multinomial : Rat → Arr → Arr) (fuel : Nat) (n : Rat)
    (limits : List Box) (v : Arr) (hv : f n limits = .ok v) :
    ({ p with sample := some f } : BPdf).callSample multinomial fuel n limits =
      ({ p with sample := none } : BPdf).callSample multinomial fuel n limits := by
  have hrun : ∀ (s s' : Option (Rat → List Box → Except Err Arr)) (k : Nat),
      (∀ r, ({ p with sample := s } : BPdf).runA k r = ({ p with sample := s' } : BPdf).runA k r) ∧
      (∀ r, ({ p with sample := s } : BPdf).runN k r = ({ p with sample := s' } : BPdf).runN k r) := by
    intro s s' k
    induction k with
    | zero => exact ⟨fun r => by simp [BPdf.runA], fun r => by simp [BPdf.runN]⟩
    | succ k ih =>
      have e1 : ({ p with sample := s } : BPdf).runA k = ({ p with sample := s' } : BPdf).runA k := funext ih.1
      have e2 : ({ p with sample := s } : BPdf).runN k = ({ p with sample := s' } : BPdf).runN k := funext ih.2
      constructor
      · intro r
        rw [BPdf.runA, BPdf.runA, e1, e2]
        rfl
      · intro r
        rw [BPdf.runN, BPdf.runN, e1, e2]
        rfl
  unfold BPdf.callSample
  simp only [hv, (hrun (some f) none fuel).1]

/-- C37: `counts` and `ext_pdf` of a pdf without yield raise, for every norm; otherwise they are the result of the methods above, the
default norm being the norm of the pdf. -/
theorem counts_needs_yield (p : BPdf) :
    (p.yield = none → ∀ fuel norm, p.countsM fuel norm = some (.error .notExtended) ∧ p.extPdfM fuel norm = some (.error .notExtended))
    ∧ (p.yield ≠ none → ∀ (n : Option (Option Box)) (v : Except Err Arr),
        (EndsA p (.counts (n.getD (some p.norm))) v → ∃ k, ∀ fuel, k ≤ fuel → p.countsM fuel n = some v)
        ∧ (EndsA p (.extPdf (n.getD (some p.norm))) v → ∃ k, ∀ fuel, k ≤ fuel → p.extPdfM fuel n = some v)) := by
  unfold BPdf.countsM BPdf.extPdfM
  constructor
  · intro h fuel norm
    simp [h]
  · intro h n v
    obtain ⟨y, hy⟩ := Option.ne_none_iff_exists'.1 h
    simp only [hy]
    have : p.publicNorm n = n.getD (some p.norm) := by cases n <;> rfl
    rw [this]
    exact ⟨id, id⟩

/-- C37: without a `_sample` hook, sampling in the pdf's own space draws from a multinomial distribution with the relative counts;
any other limits raise. -/
theorem sample_multinomial (p : BPdf) (h : p.sample = none) (multinomial : Rat → Arr → Arr) (n : Rat) :
    (∀ rel, EndsA p (.relCounts (some p.norm)) (.ok rel) →
      ∃ k, ∀ fuel, k ≤ fuel → p.callSample multinomial fuel n [p.space] = some (.ok (multinomial n rel)))
    ∧ ∀ limits, limits ≠ [p.space] → ∀ fuel, p.callSample multinomial fuel n limits = some (.error .workInProgress) := by
  unfold BPdf.callSample
  simp only [h]
  constructor
  · rintro rel ⟨k, hk⟩
    exact ⟨k, fun fuel hf => by rw [if_neg (by simp), hk fuel hf]; rfl⟩
  · intro limits hl fuel
    rw [if_pos hl]

/-- C37 is violated: with the default `fixed_params=True`, giving `params` always raises; they are used only with `fixed_params=None`. -/
theorem create_sampler_params_violated (current params : List (String × Rat)) :
    createSamplerParams current (some params) .yes = .error .valueError := rfl

/-- With `fixed_params=None` the given values are used, for the others the current ones. Missing from the full claim: the cases of
`only_pdf_counts_violated`, `only_unnormalized_pdf_violated`, `ext_integrate_pieces_violated`, `sample_hook_violated`,
`create_sampler_params_violated`. -/
theorem create_sampler_params_partial (current params : List (String × Rat)) :
    createSamplerParams current (some params) .none =
      .ok (current.map (fun c => (c.1, (dictGet params c.1).getD c.2))) := rfl

/-- non-vacuity: a histogram with two bins has relative counts for its norm -/
example : ∃ p : BPdf, ∃ rel, p.sample = none ∧ p.yield ≠ none ∧ EndsA p (.relCounts (some p.norm)) (.ok rel) ∧ rel [0] = 1 / 4 :=
  ⟨{ edges := [[0, 1, 3]], space := [(0, 3)], norm := [(0, 3)], yield := some 10,
     relCounts := some (fun _ => .ok (fun i => if i = [0] then 1/4 else 3/4)) },
   _, rfl, by simp, (only_rel_counts _ _ rfl rfl rfl rfl _ _ rfl).1, by decide +kernel⟩

/-- non-vacuity: the hypotheses of the derived quantities are met by a histogram with two bins -/
example : ∃ p : BPdf, ∃ f u, p.relCounts = some f ∧ p.pdf = none ∧ p.extPdf = none ∧ p.counts = none ∧ p.integrate = none ∧
    NoNorm f u ∧ p.yield = some 10 :=
  ⟨{ edges := [[0, 1, 3]], space := [(0, 3)], norm := [(0, 3)], yield := some 10,
     relCounts := some (fun n => match n with | none => .ok (fun i => if i = [0] then 1/4 else 3/4) | some _ => .error .normNotImplemented) },
   _, _, rfl, rfl, rfl, rfl, rfl, ⟨rfl, fun _ => rfl⟩, rfl⟩

end Zfit.BinPdf
