import Verif.Functor.GroupProps

/-! C316: the unit of the observables makes no difference to sums of PDFs. -/

namespace Zfit.Functor

open Zfit Zfit.Pdf

variable {X P X' P' : Type}

/-! ### Specification -/

mutual
/-- The formula with every PDF replaced by another one (as the same PDF for observables in another unit), with the same fractions. -/
def Formula.replace (φ : Daughter X P → Daughter X' P') : Formula X P → Formula X' P'
  | .pdf d => .pdf (φ d)
  | .sum ps fracs => .sum (replaceAll φ ps) fracs

/-- The same for several formulas. -/
def replaceAll (φ : Daughter X P → Daughter X' P') : List (Formula X P) → List (Formula X' P')
  | [] => []
  | p :: ps => Formula.replace φ p :: replaceAll φ ps
end

/-! ### Lemmas -/

variable {φ : Daughter X P → Daughter X' P'}

mutual
theorem leaves_replace : ∀ F : Formula X P, (F.replace φ).leaves = F.leaves.map φ
  | .pdf d => by simp [Formula.replace, Formula.leaves]
  | .sum ps _ => by simp [Formula.replace, Formula.leaves, leavesAll_replace ps]

theorem leavesAll_replace : ∀ ps : List (Formula X P), leavesAll (replaceAll φ ps) = (leavesAll ps).map φ
  | [] => by simp [replaceAll, leavesAll]
  | p :: ps => by simp [replaceAll, leavesAll, leaves_replace p, leavesAll_replace ps]
end

mutual
theorem events_replace : ∀ F : Formula X P, (∀ d ∈ F.leaves, (φ d).impl.yield = d.impl.yield) → (F.replace φ).events = F.events
  | .pdf d, h => by simp [Formula.replace, Formula.events, h d (by simp [Formula.leaves])]
  | .sum ps _, h => by
    simp only [Formula.replace, Formula.events]
    rw [eventsAll_replace ps (by simpa [Formula.leaves] using h)]

theorem eventsAll_replace : ∀ ps : List (Formula X P), (∀ d ∈ leavesAll ps, (φ d).impl.yield = d.impl.yield) →
    eventsAll (replaceAll φ ps) = eventsAll ps
  | [], _ => by simp [replaceAll, eventsAll]
  | p :: ps, h => by
    simp only [replaceAll, eventsAll]
    rw [events_replace p fun d hd => h d (by simp [leavesAll, hd]), eventsAll_replace ps fun d hd => h d (by simp [leavesAll, hd])]
end

mutual
theorem parts_replace : ∀ F : Formula X P, (∀ d ∈ F.leaves, (φ d).impl.yield = d.impl.yield) →
    (F.replace φ).parts = F.parts.map fun q => (q.1, φ q.2)
  | .pdf d, h => by simp [Formula.replace, Formula.parts]
  | .sum ps fracs, h => by
    simp only [Formula.replace, Formula.parts]
    rw [eventsAll_replace ps (by simpa [Formula.leaves] using h)]
    exact partsAll_replace ps _ (by simpa [Formula.leaves] using h)

theorem partsAll_replace : ∀ (ps : List (Formula X P)) (fs : List ℝ), (∀ d ∈ leavesAll ps, (φ d).impl.yield = d.impl.yield) →
    partsAll (replaceAll φ ps) fs = (partsAll ps fs).map fun q => (q.1, φ q.2)
  | [], _, _ => by simp [replaceAll, partsAll]
  | _ :: _, [], _ => by simp [replaceAll, partsAll]
  | p :: ps, f :: fs, h => by
    simp only [replaceAll, partsAll]
    rw [parts_replace p fun d hd => h d (by simp [leavesAll, hd]), partsAll_replace ps fs fun d hd => h d (by simp [leavesAll, hd])]
    simp [Function.comp_def]
end

mutual
theorem parts_mem : ∀ F : Formula X P, ∀ q ∈ F.parts, q.2 ∈ F.leaves
  | .pdf d, q, hq => by
    simp only [Formula.parts, List.mem_singleton] at hq
    simp [hq, Formula.leaves]
  | .sum ps fracs, q, hq => by
    simp only [Formula.parts] at hq
    simp only [Formula.leaves]
    exact partsAll_mem ps _ q hq

theorem partsAll_mem : ∀ (ps : List (Formula X P)) (fs : List ℝ), ∀ q ∈ partsAll ps fs, q.2 ∈ leavesAll ps
  | [], _, q, hq => by simp [partsAll] at hq
  | _ :: _, [], q, hq => by simp [partsAll] at hq
  | p :: ps, f :: fs, q, hq => by
    simp only [partsAll, List.mem_append, List.mem_map] at hq
    simp only [leavesAll, List.mem_append]
    rcases hq with ⟨q0, h0, rfl⟩ | hq
    · exact .inl (parts_mem p q0 h0)
    · exact .inr (partsAll_mem ps fs q hq)
end

mutual
theorem yields_replace : ∀ F : Formula X P, F.Yields → (F.replace φ).Yields
  | .pdf d, _ => by simp [Formula.replace, Formula.Yields]
  | .sum ps fracs, h => by
    simp only [Formula.Yields] at h
    simp only [Formula.replace, Formula.Yields]
    exact ⟨h.1, yieldsAll_replace ps h.2⟩

theorem yieldsAll_replace : ∀ ps : List (Formula X P), YieldsAll ps → YieldsAll (replaceAll φ ps)
  | [], _ => by simp [replaceAll, YieldsAll]
  | p :: ps, h => by
    simp only [YieldsAll] at h
    simp only [replaceAll, YieldsAll]
    exact ⟨yields_replace p h.1, yieldsAll_replace ps h.2⟩
end

variable [DecidableEq P] [DecidableEq P'] {n : List P} {n' : List P'} {numInt : (X → Except Err ℝ) → List P → Except Err ℝ}
  {numInt' : (X' → Except Err ℝ) → List P' → Except Err ℝ}

/-- the same error, or PDFs of the same yield -/
def SameOutcome (r : Except Err (Daughter X P)) (r' : Except Err (Daughter X' P')) : Prop :=
  match r, r' with
  | .error e, .error e' => e = e'
  | .ok D, .ok D' => D'.impl.yield = D.impl.yield
  | _, _ => False

theorem makeSum_same {ds : List (Daughter X P)} {ds' : List (Daughter X' P')} (h : ds'.map (·.impl.yield) = ds.map (·.impl.yield)) (fracs : List ℝ) :
    SameOutcome (makeSum n numInt ds fracs) (makeSum n' numInt' ds' fracs) := by
  have e : (ds'.map fun d => (⟨[], d.impl.yield.map fun y _ => y⟩ : Comp Unit)) = ds.map fun d => ⟨[], d.impl.yield.map fun y _ => y⟩ := by
    have := congrArg (List.map fun o : Option ℝ => (⟨[], o.map fun y _ => y⟩ : Comp Unit)) h
    simpa [List.map_map, Function.comp_def] using this
  unfold makeSum
  rw [e]
  cases mkSum (S := Unit) (ds.map fun d => ⟨[], d.impl.yield.map fun y _ => y⟩) (fracs.map fun f _ => f) none .none with
  | error e => rfl
  | ok s => rfl

mutual
theorem build_replace : ∀ F : Formula X P, (∀ d ∈ F.leaves, (φ d).impl.yield = d.impl.yield) →
    SameOutcome (F.build n numInt) ((F.replace φ).build n' numInt')
  | .pdf d, h => by
    simp only [Formula.replace, Formula.build]
    exact h d (by simp [Formula.leaves])
  | .sum ps fracs, h => by
    simp only [Formula.replace, Formula.build]
    have := buildAll_replace ps (by simpa [Formula.leaves] using h)
    revert this
    cases h1 : buildAll n numInt ps with
    | error e =>
      cases h2 : buildAll n' numInt' (replaceAll φ ps) with
      | error e' => exact id
      | ok _ => exact False.elim
    | ok ds =>
      cases h2 : buildAll n' numInt' (replaceAll φ ps) with
      | error _ => exact False.elim
      | ok ds' => exact fun h => makeSum_same h fracs

theorem buildAll_replace : ∀ ps : List (Formula X P), (∀ d ∈ leavesAll ps, (φ d).impl.yield = d.impl.yield) →
    match buildAll n numInt ps, buildAll n' numInt' (replaceAll φ ps) with
    | .error e, .error e' => e = e'
    | .ok ds, .ok ds' => ds'.map (·.impl.yield) = ds.map (·.impl.yield)
    | _, _ => False
  | [], _ => by simp [replaceAll, buildAll]
  | p :: ps, h => by
    have hp := build_replace p fun d hd => h d (by simp [leavesAll, hd])
    have hps := buildAll_replace ps fun d hd => h d (by simp [leavesAll, hd])
    simp only [replaceAll, buildAll]
    revert hp hps
    cases p.build n numInt with
    | error e =>
      cases (p.replace φ).build n' numInt' with
      | error e' => exact fun h _ => h
      | ok _ => exact fun h _ => h.elim
    | ok d =>
      cases (p.replace φ).build n' numInt' with
      | error _ => exact fun h _ => h.elim
      | ok d' =>
        cases buildAll n numInt ps with
        | error e =>
          cases buildAll n' numInt' (replaceAll φ ps) with
          | error e' => exact fun _ h => h
          | ok _ => exact fun _ h => h.elim
        | ok ds =>
          cases buildAll n' numInt' (replaceAll φ ps) with
          | error _ => exact fun _ h => h.elim
          | ok ds' =>
            intro h1 h2
            have h1' : d'.impl.yield = d.impl.yield := h1
            simp only at h2
            simp [h1', h2]
end

omit [DecidableEq P] [DecidableEq P'] in
theorem same_outcome {r : Except Err (Daughter X P)} {r' : Except Err (Daughter X' P')} (h : SameOutcome r r') :
    (∀ D, r = .ok D → ∃ D', r' = .ok D' ∧ D'.impl.yield = D.impl.yield) ∧ ∀ e, r = .error e → r' = .error e := by
  cases r with
  | error e =>
    cases r' with
    | error e' =>
      simp only [SameOutcome] at h
      subst h
      exact ⟨fun D hD => absurd hD (by simp), fun e' he => by rw [Except.error.injEq] at he; rw [he]⟩
    | ok _ => exact h.elim
  | ok D =>
    cases r' with
    | error _ => exact h.elim
    | ok D' =>
      simp only [SameOutcome] at h
      refine ⟨fun D0 h0 => ⟨D', rfl, ?_⟩, fun e he => absurd he (by simp)⟩
      rw [Except.ok.injEq] at h0
      rw [h, h0]

/-! ### Theorems -/

/-- C316: whether a formula of sums is accepted, and its yield, do not depend on the unit of the observables. -/
theorem sum_unit_accepted (F : Formula X P) (hy : ∀ d ∈ F.leaves, (φ d).impl.yield = d.impl.yield) :
    (∀ D, F.build n numInt = .ok D → ∃ D', (F.replace φ).build n' numInt' = .ok D' ∧ D'.impl.yield = D.impl.yield) ∧
    ∀ e, F.build n numInt = .error e → (F.replace φ).build n' numInt' = .error e := by
  have h := build_replace (n := n) (n' := n') (numInt := numInt) (numInt' := numInt') F hy
  exact same_outcome h

/-- C316: if the density of every PDF in a formula of sums of any depth is divided by a factor in another unit of the observables, the density of the
formula is divided by it too. -/
theorem sum_unit {F : Formula X P} {D : Daughter X P} {D' : Daughter X' P'} (hF : F.build n numInt = .ok D)
    (hF' : (F.replace φ).build n' numInt' = .ok D') (hy : ∀ d ∈ F.leaves, (φ d).impl.yield = d.impl.yield) (a : ℝ) (x : X) (x' : X')
    (hn : ∀ d ∈ F.leaves, d.norm = n ∧ (φ d).norm = n') (hv : ∀ d ∈ F.leaves, ∃ v, d.pdf x = .ok v ∧ (φ d).pdf x' = .ok (v / a)) :
    ∃ w, D.pdf x = .ok w ∧ D'.pdf x' = .ok (w / a) := by
  have h1 := (build_good x (fun d => (d.pdf x).toOption.getD 0) F D hF fun d hd => ⟨(hn d hd).1, by
    obtain ⟨v, h, -⟩ := hv d hd
    simp [h, Except.toOption]⟩).2.1
  have h2 := (build_good x' (fun d => (d.pdf x').toOption.getD 0) (F.replace φ) D' hF' fun d hd => by
    rw [leaves_replace] at hd
    obtain ⟨d0, hd0, rfl⟩ := List.mem_map.1 hd
    obtain ⟨v, -, h⟩ := hv d0 hd0
    exact ⟨(hn d0 hd0).2, by simp [h, Except.toOption]⟩).2.1
  refine ⟨_, h1, ?_⟩
  rw [h2, parts_replace F hy]
  unfold blend
  rw [List.map_map]
  congr 1
  have key : ∀ q ∈ F.parts, ((φ q.2).pdf x').toOption.getD 0 = (q.2.pdf x).toOption.getD 0 / a := by
    intro q hq
    obtain ⟨v, h, h'⟩ := hv q.2 (parts_mem F q hq)
    simp [h, h', Except.toOption]
  have hm : (F.parts.map ((fun q : ℝ × Daughter X' P' => q.1 * (q.2.pdf x').toOption.getD 0) ∘ fun q => (q.1, φ q.2))) =
      (F.parts.map fun q => q.1 * (q.2.pdf x).toOption.getD 0).map (· / a) := by
    rw [List.map_map]
    refine List.map_congr_left fun q hq => ?_
    simp only [Function.comp_apply]
    rw [key q hq, mul_div_assoc]
  rw [hm]
  generalize (F.parts.map fun q => q.1 * (q.2.pdf x).toOption.getD 0) = l
  induction l with
  | nil => simp
  | cons v l ih => simp [ih, add_div]

/-- C316: the same for the extended density of a sum of extended PDFs. -/
theorem sum_unit_extended {F : Formula X P} {D : Daughter X P} {D' : Daughter X' P'} (hF : F.build n numInt = .ok D)
    (hF' : (F.replace φ).build n' numInt' = .ok D') (hY : F.Yields) (a : ℝ) (x : X) (x' : X')
    (hn : ∀ d ∈ F.leaves, d.norm = n ∧ (φ d).norm = n') (hv : ∀ d ∈ F.leaves, ∃ v, d.extPdf x = .ok v ∧ (φ d).extPdf x' = .ok (v / a)) :
    ∃ w, D.extPdf x = .ok w ∧ D'.extPdf x' = .ok (w / a) := by
  have h1 := (build_extended x (fun d => (d.extPdf x).toOption.getD 0) F D hF hY fun d hd => ⟨(hn d hd).1, by
    obtain ⟨v, h, -⟩ := hv d hd
    simp [h, Except.toOption]⟩).2.1
  have h2 := (build_extended x' (fun d => (d.extPdf x').toOption.getD 0) (F.replace φ) D' hF' (yields_replace F hY) fun d hd => by
    rw [leaves_replace] at hd
    obtain ⟨d0, hd0, rfl⟩ := List.mem_map.1 hd
    obtain ⟨v, -, h⟩ := hv d0 hd0
    exact ⟨(hn d0 hd0).2, by simp [h, Except.toOption]⟩).2.1
  refine ⟨_, h1, ?_⟩
  rw [h2, leaves_replace, List.map_map]
  congr 1
  have hm : (F.leaves.map ((fun d : Daughter X' P' => (d.extPdf x').toOption.getD 0) ∘ φ)) =
      (F.leaves.map fun d => (d.extPdf x).toOption.getD 0).map (· / a) := by
    rw [List.map_map]
    refine List.map_congr_left fun d hd => ?_
    obtain ⟨v, h, h'⟩ := hv d hd
    simp [h, h', Except.toOption]
  rw [hm]
  generalize (F.leaves.map fun d => (d.extPdf x).toOption.getD 0) = l
  induction l with
  | nil => simp
  | cons v l ih => simp [ih, add_div]

/-- Such formulas are accepted, whatever the PDFs: `(a + b) + c` with fractions. -/
example (a b c : Daughter X P) : ∃ D, (Formula.sum [.sum [.pdf a, .pdf b] [1 / 2], .pdf c] [1 / 2]).build n numInt = .ok D :=
  ⟨_, rfl⟩

/-- The hypothesis on the PDFs: a flat PDF between 0 and 2, and the same with the observable in half the unit. -/
example : ∃ v, (⟨exPlain, [(0, 2)]⟩ : Daughter ℝ (ℝ × ℝ)).pdf 1 = .ok v ∧ (⟨exPlain, [(0, 4)]⟩ : Daughter ℝ (ℝ × ℝ)).pdf 2 = .ok (v / 2) := by
  refine ⟨1 / 2, ?_, ?_⟩
  · show exPlain.evalPdf 1 (.range [(0, 2)]) = _
    rw [(pdf_value exPlain_honest (.inl rfl) 1).2 [(0, 2)] (by norm_num [total])]
    norm_num [total]
  · show exPlain.evalPdf 2 (.range [(0, 4)]) = _
    rw [(pdf_value exPlain_honest (.inl rfl) 2).2 [(0, 4)] (by norm_num [total])]
    norm_num [total]

end Zfit.Functor
