import Verif.Hs3.LossModel
import Verif.Hs3.DocProps
import Verif.Data.SaveProps

/-! Property C300: a likelihood that is saved and loaded has the same value. -/

namespace Zfit.Hs3

open Zfit Zfit.Dat

variable {E S C : Type}

/-- The data can be saved and loaded without loss (C298): rectangular limits, all events inside of them, one weight per event. -/
def Savable (d : Named) : Prop :=
  d.data.space.Proper ∧ ∃ leaf pts w, d.data.space.lims = some [leaf] ∧ Ordered leaf ∧ d.data.Shows pts w ∧ Weighted pts w ∧
    ∀ p ∈ pts, d.data.space.contains p = true

theorem points_shows (d : Data) (pts : List (String → ℚ)) (w : Option (List ℚ)) (h : d.Shows pts w) :
    points d = .ok ((table d.space.obs pts).map fun r o => r.getD (d.space.obs.idxOf o) 0) := by
  obtain ⟨d', h1⟩ := Shows.read h none (by rintro x ⟨⟩)
  unfold points
  rw [h1]
  rfl

theorem reload_savable (d : Named) (h : Savable d) :
    ∃ d', (d.save >>= DataDoc.load) = .ok d' ∧ points d'.data = points d.data ∧ d'.data.weights = d.data.weights := by
  obtain ⟨hs, leaf, pts, w, hl, ho, hd, hw, hin⟩ := h
  obtain ⟨doc, d', h1, h2, h3, -, h5⟩ := saved_events d hs leaf hl ho pts w hd hw
  rw [filter_all hin, keptWeights_all hw hin] at h5
  refine ⟨d', by rw [h1, except_bind_ok, h2], ?_, ?_⟩
  · rw [points_shows _ _ _ h5, points_shows _ _ _ hd, h3]
  · rw [h5.1, hd.1]

theorem reload_terms (ts : List (Pdf E S × Named × Option S))
    (h : ∀ t ∈ ts, Built t.1 ∧ DefaultNorm t.1 ∧ Savable t.2.1 ∧ t.2.2 = none) :
    ∃ ts', ts.mapM reloadTerm = .ok ts' ∧
      ∀ (box : S → DSpace) (basic : String → List String → S → S → E → (String → ℚ) → ℚ) (e : E),
        ts'.mapM (term box basic e) = ts.mapM (term box basic e) := by
  induction ts with
  | nil => exact ⟨[], rfl, fun _ _ _ => rfl⟩
  | cons t ts ih =>
    obtain ⟨ts', h1, h2⟩ := ih fun x hx => h x (by simp [hx])
    obtain ⟨hb, hn, hd, hr⟩ := h t (by simp)
    obtain ⟨p, d, r⟩ := t
    simp only at hb hn hd hr
    subst hr
    obtain ⟨q, h3, h4⟩ := density_partial p hb hn
    obtain ⟨d', h5, h6, h7⟩ := reload_savable d hd
    have hterm : reloadTerm (p, d, (none : Option S)) = .ok (q, d', none) := by
      simp only [reloadTerm, h3, h5]
    refine ⟨(q, d', none) :: ts', ?_, ?_⟩
    · rw [List.mapM_cons, hterm, except_bind_ok, h1, except_bind_ok]
      rfl
    · intro box basic e
      have : term box basic e (q, d', none) = term box basic e (p, d, none) := by
        simp only [term, h6, h7]
        cases points d.data with
        | error err => rfl
        | ok pts =>
          simp only
          congr 3
          funext x
          exact h4 _ basic e x
      rw [List.mapM_cons, List.mapM_cons, this, h2]

theorem reload_constraints (cval : C → E → ℝ) (reloadC : C → Except Err C) (cs : List C)
    (h : ∀ c ∈ cs, ∃ c', reloadC c = .ok c' ∧ ∀ e, cval c' e = cval c e) :
    ∃ cs', cs.mapM reloadC = .ok cs' ∧ ∀ e, (cs'.map fun c => cval c e) = cs.map fun c => cval c e := by
  induction cs with
  | nil => exact ⟨[], rfl, fun _ => rfl⟩
  | cons c cs ih =>
    obtain ⟨cs', h1, h2⟩ := ih fun x hx => h x (by simp [hx])
    obtain ⟨c', h3, h4⟩ := h c (by simp)
    refine ⟨c' :: cs', ?_, ?_⟩
    · rw [List.mapM_cons, h3, except_bind_ok, h1, except_bind_ok]
      rfl
    · intro e
      simp only [List.map_cons, h4 e, h2 e]

/-- C300. A likelihood without fit ranges, of PDFs normalised over their spaces (sums of sums included) and data with rectangular limits,
can be loaded after it was saved and has the same value for all values of the parameters, if its constraints have. Missing from the
full claim: the cases of the theorems below, and those of C181, C298 and C299. -/
theorem saved_loss_partial (l : Loss E S C) (reloadC : C → Except Err C) (cval : C → E → ℝ)
    (ht : ∀ t ∈ l.terms, Built t.1 ∧ DefaultNorm t.1 ∧ Savable t.2.1 ∧ t.2.2 = none)
    (hc : ∀ c ∈ l.constraints, ∃ c', reloadC c = .ok c' ∧ ∀ e, cval c' e = cval c e) :
    ∃ l', l.reload reloadC = .ok l' ∧
      ∀ (box : S → DSpace) (basic : String → List String → S → S → E → (String → ℚ) → ℚ) (e : E),
        l'.value box basic cval e = l.value box basic cval e := by
  obtain ⟨ts, h1, h2⟩ := reload_terms l.terms ht
  obtain ⟨cs, h3, h4⟩ := reload_constraints cval reloadC l.constraints hc
  refine ⟨⟨ts, cs, []⟩, by simp only [Loss.reload, h1, h3], fun box basic e => ?_⟩
  simp only [Loss.value, h2, h4]

/-- An event as it is seen by a PDF: the values of the observables of the data. -/
def seen (obs : List String) (p : String → ℚ) : String → ℚ := fun o => if o ∈ obs then p o else 0

theorem points_seen (d : Data) (pts : List (String → ℚ)) (w : Option (List ℚ)) (h : d.Shows pts w) :
    points d = .ok (pts.map (seen d.space.obs)) := by
  rw [points_shows d pts w h, table, List.map_map]
  congr 1
  apply List.map_congr_left
  intro p _
  funext o
  simp only [Function.comp_apply, seen]
  split
  · rename_i ho
    have hi : d.space.obs.idxOf o < d.space.obs.length := List.idxOf_lt_length_iff.2 ho
    rw [List.getD_eq_getElem?_getD, List.getElem?_map, List.getElem?_eq_getElem hi]
    simp
  · rename_i ho
    rw [List.getD_eq_getElem?_getD, List.getElem?_eq_none]
    · rfl
    · simp [List.idxOf_eq_length ho]

/-- C300: the value that is kept: `-Σ w log p` over all events of all data sets, plus the constraints. -/
theorem saved_loss_value (l : Loss E S C) (cval : C → E → ℝ) (pts : Named → List (String → ℚ)) (w : Named → Option (List ℚ))
    (ht : ∀ t ∈ l.terms, t.2.1.data.Shows (pts t.2.1) (w t.2.1) ∧ t.2.2 = none)
    (box : S → DSpace) (basic : String → List String → S → S → E → (String → ℚ) → ℚ) (e : E) :
    l.value box basic cval e = .ok ((l.terms.map fun t => -(List.zipWith
        (fun (x : String → ℚ) (w : ℚ) => (w : ℝ) * Real.log (density basic e (seen t.2.1.data.space.obs x) t.1))
        (pts t.2.1) ((w t.2.1).getD (List.replicate (pts t.2.1).length 1))).sum).sum
      + (l.constraints.map fun c => cval c e).sum) := by
  have hterm : ∀ t ∈ l.terms, term box basic e t = .ok (-(List.zipWith
        (fun (x : String → ℚ) (w : ℚ) => (w : ℝ) * Real.log (density basic e (seen t.2.1.data.space.obs x) t.1))
        (pts t.2.1) ((w t.2.1).getD (List.replicate (pts t.2.1).length 1))).sum) := by
    rintro ⟨p, d, r⟩ hmem
    obtain ⟨hs, hr⟩ := ht _ hmem
    simp only at hs hr
    subst hr
    simp only [term, points_seen _ _ _ hs, hs.1, sumLog, List.map_map, List.length_map]
    congr 2
    rw [List.zipWith_map_right, List.zipWith_comm]
    rfl
  unfold Loss.value
  rw [mapM_ok_of_forall _ _ _ hterm]

/-- Data in (0, 10): one event at 3. -/
def exData : Named := Named.make ⟨⟨["x"], some [[(0, 10)]]⟩, .tensor ⟨1, [[3]]⟩ [0], none⟩ none none

theorem exData_savable : Savable exData := by
  obtain ⟨d, h1, h2, h3⟩ := cut_keeps_exactly_inside ⟨["x"], some [[(0, 10)]]⟩
    ⟨by decide, by decide, by rintro ls ⟨⟩ b hb; simp only [List.mem_singleton] at hb; subst hb; rfl⟩
    [fun _ => 3] none (by rintro l ⟨⟩)
  have hd : d = exData.data := by
    have : Data.fromTensor ⟨["x"], some [[(0, 10)]]⟩ ⟨1, [[3]]⟩ none false = .ok exData.data := by decide +kernel
    have h1' : Data.fromTensor ⟨["x"], some [[(0, 10)]]⟩ ⟨1, [[3]]⟩ none false = .ok d := h1
    rw [this] at h1'
    cases h1'
    rfl
  subst hd
  refine ⟨⟨by decide, by decide, ?_⟩, [(0, 10)], [fun _ => 3], none, rfl, ?_, ?_, by rintro l ⟨⟩, ?_⟩
  · rintro ls ⟨⟩ b hb; simp only [List.mem_singleton] at hb; subst hb; rfl
  · intro l hl; simp only [List.mem_singleton] at hl; subst hl; decide
  · have hk : ([fun _ => 3] : List (String → ℚ)).filter (DSpace.contains ⟨["x"], some [[(0, 10)]]⟩) = [fun _ => 3] := by
      apply filter_all
      intro p hp
      simp only [List.mem_singleton] at hp
      subst hp
      decide +kernel
    rw [hk] at h3
    exact h3
  · intro p hp
    simp only [List.mem_singleton] at hp
    subst hp
    decide +kernel

/-- The hypotheses are met: one PDF, one constraint. -/
example : ∃ l', (Loss.of [exGauss none none] [exData] [none] [()] []).reload (fun c => .ok c) = .ok l' ∧
    ∀ box basic e, l'.value box basic (fun _ _ => (2 : ℝ)) e =
      (Loss.of [exGauss none none] [exData] [none] [()] []).value box basic (fun _ _ => (2 : ℝ)) e :=
  saved_loss_partial _ _ _ (by
    intro t ht
    simp only [Loss.of, List.zip_cons_cons, List.zip_nil_right, List.mem_singleton] at ht
    subst ht
    exact ⟨by unfold exGauss; trivial, by unfold exGauss; rfl, exData_savable, rfl⟩)
    (fun c _ => ⟨c, rfl, fun _ => rfl⟩)

/-- C300 is violated: a fit range is lost. The likelihood of one event at 3 in a uniform PDF on (0, 10), with the fit range (2, 4), is
log 2; after saving and loading it is log 10. -/
theorem saved_range_violated :
    let box : ℚ × ℚ → DSpace := fun r => ⟨["x"], some [[r]]⟩
    let basic : String → List String → ℚ × ℚ → ℚ × ℚ → Unit → (String → ℚ) → ℚ := fun _ _ _ n _ _ => 1 / (n.2 - n.1)
    let l : Loss Unit (ℚ × ℚ) Unit := Loss.of [exGauss none none] [exData] [some (2, 4)] [] []
    ∃ l', l.reload (fun c => .ok c) = .ok l' ∧ l.value box basic (fun _ _ => 0) () = .ok (Real.log 2) ∧
      l'.value box basic (fun _ _ => 0) () = .ok (Real.log 10) := by
  intro box basic l
  have hload : (exData.save >>= DataDoc.load) = .ok exData := by decide +kernel
  refine ⟨⟨[(exGauss none none, exData, none)], [], []⟩, ?_, ?_, ?_⟩
  · have : reloadTerm (exGauss none none, exData, some ((2 : ℚ), (4 : ℚ))) = .ok (exGauss none none, exData, none) := by
      simp only [reloadTerm, hload, exGauss, reload]
    simp only [l, Loss.of, Loss.reload, List.zip_cons_cons, List.zip_nil_right, List.mapM_cons, this, except_bind_ok, List.mapM_nil]
    rfl
  · have hcut : exData.data.withSpace (box (2, 4)) = .ok ⟨⟨["x"], some [[(2, 4)]]⟩, .tensor ⟨1, [[3]]⟩ [0], none⟩ := by
      decide +kernel
    have hval : (Data.value ⟨⟨["x"], some [[(2, 4)]]⟩, .tensor ⟨1, [[3]]⟩ [0], none⟩ none) =
        .ok (⟨1, [[3]]⟩, ⟨⟨["x"], some [[(2, 4)]]⟩, .tensor ⟨1, [[3]]⟩ [0], none⟩) := by decide +kernel
    have ht : term box basic () (exGauss none none, exData, some ((2 : ℚ), (4 : ℚ))) = .ok (Real.log 2) := by
      simp only [term, hcut, points, hval, List.map_cons, List.map_nil, exGauss, density, basic, sumLog]
      norm_num
      rw [one_div, Real.log_inv, neg_neg]
    simp only [l, Loss.of, Loss.value, List.zip_cons_cons, List.zip_nil_right, List.mapM_cons, ht, except_bind_ok, List.mapM_nil]
    simp [Pure.pure, Except.pure]
  · have hval : exData.data.value none = .ok (⟨1, [[3]]⟩, exData.data) := by decide +kernel
    have ht : term box basic () (exGauss none none, exData, none) = .ok (Real.log 10) := by
      have hw : exData.data.weights = none := rfl
      simp only [term, points, hval, hw, List.map_cons, List.map_nil, exGauss, density, basic, sumLog]
      norm_num
      rw [one_div, Real.log_inv, neg_neg]
    simp only [Loss.value, List.mapM_cons, ht, except_bind_ok, List.mapM_nil]
    simp [Pure.pure, Except.pure]

/-- C300 is violated: the options are lost; the loaded likelihood has the default options, whatever they were. -/
theorem saved_options_violated (l l' : Loss E S C) (reloadC : C → Except Err C) (h : l.reload reloadC = .ok l') :
    l'.options = [] := by
  unfold Loss.reload at h
  split at h
  · cases h
  · split at h
    · cases h
    · cases h; rfl

end Zfit.Hs3
