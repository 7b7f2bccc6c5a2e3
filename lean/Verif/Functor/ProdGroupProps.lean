import Verif.Functor.ProdGroupModel
import Verif.Functor.ProductProps

/-! C302: how a product is grouped and ordered makes no difference. -/

namespace Zfit.Functor

open Zfit Zfit.Dat

variable {R V : Type}

/-! ### Specification -/

mutual
/-- The PDFs of a formula. -/
def Product.leaves : Product R V → List (Factor R V)
  | .pdf f => [f]
  | .prod ps => prodLeaves ps

/-- The PDFs of several formulas. -/
def prodLeaves : List (Product R V) → List (Factor R V)
  | [] => []
  | p :: ps => Product.leaves p ++ prodLeaves ps
end

mutual
/-- No product is without parts. -/
def Product.Proper : Product R V → Prop
  | .pdf f => f.obs.Nodup ∧ f.obs ≠ []
  | .prod ps => ps ≠ [] ∧ ProperAll ps

/-- The same for several formulas. -/
def ProperAll : List (Product R V) → Prop
  | [] => True
  | p :: ps => Product.Proper p ∧ ProperAll ps
end

/-- A formula as one PDF: its observables and the product of its PDFs. -/
def Product.factor [Inhabited R] [Monoid V] (F : Product R V) : Factor R V :=
  ⟨F.obs, fun row => (F.leaves.map fun f => f.val (f.obs.map fun o => row.getD (F.obs.idxOf o) default)).prod⟩

/-! ### Lemmas -/

theorem mem_commonObs (obss : List (List String)) (o : String) : o ∈ commonObs obss ↔ ∃ os ∈ obss, o ∈ os := by
  have := mem_productObs (R := Unit) (V := Unit) (obss.map fun os => ⟨os, fun _ => ()⟩) o
  simpa [productObs, Function.comp_def] using this

theorem commonObs_nodup (obss : List (List String)) : (commonObs obss).Nodup := by
  have := productObs_nodup (R := Unit) (V := Unit) (obss.map fun os => ⟨os, fun _ => ()⟩)
  simpa [productObs, Function.comp_def] using this

mutual
theorem mem_obs : ∀ (F : Product R V) (o : String), o ∈ F.obs ↔ ∃ f ∈ F.leaves, o ∈ f.obs
  | .pdf f, o => by simp [Product.obs, Product.leaves]
  | .prod ps, o => by
    rw [Product.obs, mem_commonObs, Product.leaves]
    exact mem_obsAll ps o

theorem mem_obsAll : ∀ (ps : List (Product R V)) (o : String), (∃ os ∈ obsAll ps, o ∈ os) ↔ ∃ f ∈ prodLeaves ps, o ∈ f.obs
  | [], o => by simp [obsAll, prodLeaves]
  | p :: ps, o => by
    have h1 := mem_obs p o
    have h2 := mem_obsAll ps o
    simp only [obsAll, prodLeaves, List.mem_cons, List.mem_append, or_and_right, exists_or, exists_eq_left]
    rw [h1, h2]
end

mutual
theorem obs_ne : ∀ (F : Product R V), F.Proper → F.obs ≠ []
  | .pdf f, h => h.2
  | .prod [], h => absurd rfl h.1
  | .prod (p :: ps), h => by
    have h2 := obs_ne p h.2.1
    obtain ⟨o, os, ho⟩ := List.exists_cons_of_ne_nil h2
    intro hc
    have : o ∈ commonObs (obsAll (p :: ps)) := (mem_commonObs _ _).2 ⟨p.obs, by simp [obsAll], by simp [ho]⟩
    rw [Product.obs] at hc
    rw [hc] at this
    simp at this
end

mutual
theorem product_eval_leaves [Monoid V] {pts : List (String → Rat)} {w : Option (List Rat)} :
    ∀ (F : Product Rat V) (d : Data), Inv d pts w → (∀ p ∈ pts, d.space.contains p = true) → F.Proper →
      (∀ o ∈ F.obs, o ∈ d.space.obs) →
      F.eval d = .ok (pts.map fun p => (F.leaves.map fun f => f.val (f.obs.map p)).prod)
  | .pdf f, d, h, hin, hp, hl => by
    rw [Product.eval, factor_eval h hin hp.1 hp.2 hl]
    simp [Product.leaves]
  | .prod ps, d, h, hin, hp, hl => by
    have hne := obs_ne (.prod ps) hp
    obtain ⟨d', h1, h2, h3, h4⟩ := withObs_ok h hin (commonObs_nodup (obsAll ps)) hne hl
    have h5 := product_evalAll_leaves ps d' h2 h4 hp.2 (by
      intro p hp o ho
      rw [h3]
      exact (mem_commonObs _ _).2 ⟨p, hp, ho⟩)
    rw [Product.eval, h1, except_bind_ok, h5, except_bind_ok]
    obtain ⟨p, ps', rfl⟩ := List.exists_cons_of_ne_nil hp.1
    simp only [List.map_cons, reduceMul]
    have := foldl_zipWith pts (ps'.map fun (q : Product Rat V) p => (q.leaves.map fun f => f.val (f.obs.map p)).prod)
      (fun x => (p.leaves.map fun f => f.val (f.obs.map x)).prod)
    rw [List.map_map] at this
    simp only [Function.comp_def] at this
    rw [this]
    congr 1
    apply List.map_congr_left
    intro x _
    rw [Product.leaves, prodLeaves, List.map_append, List.prod_append]
    congr 1
    clear * -
    induction ps' with
    | nil => simp [prodLeaves]
    | cons q qs ih =>
      simp only [List.map_cons, List.prod_cons, prodLeaves, List.map_append, List.prod_append]
      rw [ih]

theorem product_evalAll_leaves [Monoid V] {pts : List (String → Rat)} {w : Option (List Rat)} :
    ∀ (ps : List (Product Rat V)) (d : Data), Inv d pts w → (∀ p ∈ pts, d.space.contains p = true) → ProperAll ps →
      (∀ os ∈ obsAll ps, ∀ o ∈ os, o ∈ d.space.obs) →
      evalAll ps d = .ok (ps.map fun q => pts.map fun p => (q.leaves.map fun f => f.val (f.obs.map p)).prod)
  | [], d, _, _, _, _ => rfl
  | p :: ps, d, h, hin, hp, hl => by
    rw [evalAll, product_eval_leaves p d h hin hp.1 (fun o ho => hl p.obs (by simp [obsAll]) o ho), except_bind_ok,
      product_evalAll_leaves ps d h hin hp.2 (fun os hos => hl os (by simp [obsAll, hos])), except_bind_ok]
    rfl
end

/-! ### C302 -/

/-- C302: the value of any formula of products is for every event the product of all its PDFs, each at the event's values of its own
observables; so formulas of the same PDFs, in any grouping and order, have the same values, and the same observables up to their order. -/
theorem product_grouping [CommMonoid V] {F G : Product Rat V} (hF : F.Proper) (hG : G.Proper) (hperm : F.leaves.Perm G.leaves)
    (s : DSpace) (hs : s.Proper) (hsub : ∀ f ∈ F.leaves, ∀ o ∈ f.obs, o ∈ s.obs) (pts : List (String → Rat))
    (w : Option (List Rat)) (hw : Weighted pts w) :
    ∃ d, Data.fromTensor s ⟨s.obs.length, table s.obs pts⟩ w false = .ok d ∧
      F.eval d = .ok ((pts.filter s.contains).map fun p => (F.leaves.map fun f => f.val (f.obs.map p)).prod) ∧
      F.eval d = G.eval d ∧ ∀ o, o ∈ F.obs ↔ o ∈ G.obs := by
  obtain ⟨t, m, h1, h2⟩ := holds_fromTensor s.obs pts
  obtain ⟨d, h3, h4, h5, -⟩ := make_tensor_inv hs h2 hw
  have hin : ∀ p ∈ pts.filter s.contains, d.space.contains p = true := by
    intro p hp
    rw [h4]
    exact (List.mem_filter.1 hp).2
  have hobs : ∀ o, o ∈ F.obs ↔ o ∈ G.obs := by
    intro o
    rw [mem_obs, mem_obs]
    simp only [hperm.mem_iff]
  have hFo : ∀ o ∈ F.obs, o ∈ d.space.obs := by
    intro o ho
    obtain ⟨f, hf, hof⟩ := (mem_obs F o).1 ho
    rw [h4]
    exact hsub f hf o hof
  have e1 := product_eval_leaves F d h5 hin hF hFo
  have e2 := product_eval_leaves G d h5 hin hG (fun o ho => hFo o ((hobs o).2 ho))
  refine ⟨d, by simp [Data.fromTensor, h1, h3], e1, ?_, hobs⟩
  rw [e1, e2]
  congr 1
  apply List.map_congr_left
  intro p _
  exact (hperm.map _).prod_eq

/-- two groupings of three PDFs, with different orders of the observables -/
example : (do
    let d ← Data.fromTensor ⟨["z", "x", "y"], none⟩ ⟨3, [[9, 2, 5], [9, 3, 7]]⟩ none false
    let a ← Product.eval (.prod [.prod [.pdf ⟨["y", "x"], fun r => r.getD 0 0 + 10 * r.getD 1 0⟩, .pdf ⟨["x"], fun r => r.getD 0 0⟩],
      .pdf ⟨["z"], fun r => r.getD 0 0⟩]) d
    let b ← Product.eval (.prod [.pdf ⟨["z"], fun r => r.getD 0 0⟩, .prod [.pdf ⟨["x"], fun r => r.getD 0 0⟩,
      .pdf ⟨["y", "x"], fun r => r.getD 0 0 + 10 * r.getD 1 0⟩]]) d
    return (a, b)) = .ok ([450, 999], [450, 999]) := by decide +kernel

open MeasureTheory ENNReal

/-- what a formula gives as one PDF is the product of its PDFs -/
theorem factor_val (F : Product ℝ ℝ≥0∞) (p : String → ℝ) :
    F.factor.val (F.factor.obs.map p) = groupVal F.leaves p := by
  simp only [Product.factor, groupVal]
  congr 1
  apply List.map_congr_left
  intro f hf
  congr 1
  apply List.map_congr_left
  intro o ho
  have hm : o ∈ F.obs := (mem_obs F o).2 ⟨f, hf, ho⟩
  have hi : F.obs.idxOf o < F.obs.length := List.idxOf_lt_length_iff.2 hm
  rw [List.getD_eq_getElem?_getD, List.getElem?_map, List.getElem?_eq_getElem hi]
  simp

theorem groupInt_factors (box : String → ℝ × ℝ) (ps : List (Product ℝ ℝ≥0∞)) :
    groupInt box (ps.map Product.factor) = groupInt box (prodLeaves ps) := by
  have h1 : (groupObs (ps.map Product.factor)).toFinset = (groupObs (prodLeaves ps)).toFinset := by
    ext o
    simp only [groupObs, List.mem_toFinset, List.mem_flatMap, List.mem_map]
    rw [← mem_obsAll ps o]
    clear * -
    induction ps with
    | nil => simp [obsAll]
    | cons p ps ih =>
      constructor
      · rintro ⟨f, ⟨q, hq, rfl⟩, ho⟩
        rcases List.mem_cons.1 hq with rfl | hq
        · exact ⟨q.obs, by simp [obsAll], ho⟩
        · obtain ⟨os, h1, h2⟩ := ih.1 ⟨_, ⟨q, hq, rfl⟩, ho⟩
          exact ⟨os, by simp [obsAll, h1], h2⟩
      · rintro ⟨os, hos, ho⟩
        simp only [obsAll, List.mem_cons] at hos
        rcases hos with rfl | hos
        · exact ⟨_, ⟨p, by simp, rfl⟩, ho⟩
        · obtain ⟨f, ⟨q, hq, rfl⟩, h2⟩ := ih.2 ⟨os, hos, ho⟩
          exact ⟨_, ⟨q, by simp [hq], rfl⟩, h2⟩
  have h2 : groupVal (ps.map Product.factor) = groupVal (prodLeaves ps) := by
    funext p
    clear h1
    induction ps with
    | nil => rfl
    | cons q qs ih =>
      have := factor_val q p
      simp only [groupVal, List.map_cons, List.prod_cons, prodLeaves, List.map_append, List.prod_append] at ih this ⊢
      rw [ih, this]
  unfold groupInt
  rw [h1, h2]

/-- C302: the integral of a product over a box, however its parts are grouped: if every daughter integrates correctly over its part of the
box, the integral is that of the product of all the PDFs, which does not depend on their order and grouping.  With `product_grouping`
this holds for the normalised density too, their ratio. -/
theorem product_grouping_integral (ps qs : List (Product ℝ ℝ≥0∞)) (box : String → ℝ × ℝ) (hperm : (prodLeaves ps).Perm (prodLeaves qs))
    (hm : ∀ f ∈ prodLeaves ps, Measurable (fun p : String → ℝ => f.val (f.obs.map p)))
    (int : List (Factor ℝ ℝ≥0∞) → Except Err ℝ≥0∞) {gs hs : List (List (Factor ℝ ℝ≥0∞))}
    (hg : groups (ps.map Product.factor) = some gs) (hh : groups (qs.map Product.factor) = some hs)
    (hgi : ∀ g ∈ gs, int g = .ok (groupInt box g)) (hhi : ∀ g ∈ hs, int g = .ok (groupInt box g)) :
    productIntegrate int (ps.map Product.factor) = .ok (groupInt box (prodLeaves ps)) ∧
    productIntegrate int (ps.map Product.factor) = productIntegrate int (qs.map Product.factor) := by
  have hmeas : ∀ rs : List (Product ℝ ℝ≥0∞), (∀ f ∈ prodLeaves rs, Measurable (fun p : String → ℝ => f.val (f.obs.map p))) →
      ∀ f ∈ rs.map Product.factor, Measurable (fun p : String → ℝ => f.val (f.obs.map p)) := by
    intro rs hrs f hf
    obtain ⟨q, hq, rfl⟩ := List.mem_map.1 hf
    have : (fun p : String → ℝ => q.factor.val (q.factor.obs.map p)) = groupVal q.leaves := by
      funext p
      exact factor_val q p
    rw [this]
    apply groupVal_measurable
    intro f hf
    apply hrs
    clear * - hq hf
    induction rs with
    | nil => simp at hq
    | cons r rs ih =>
      rcases List.mem_cons.1 hq with rfl | hq
      · simp [prodLeaves, hf]
      · simp [prodLeaves, ih hq]
  have h1 := (product_integral_factorises _ box (hmeas ps hm) gs hg int hgi).1
  have h2 := (product_integral_factorises _ box (hmeas qs (fun f hf => hm f (hperm.mem_iff.2 hf))) hs hh int hhi).1
  rw [groupInt_factors] at h1 h2
  exact ⟨h1, by rw [h1, h2, groupInt_perm box hperm]⟩

/-- the hypotheses of `product_grouping_integral`: a product in `x` and `y` beside a PDF in `z` -/
example : (groups (([.prod [.pdf ⟨["x"], fun _ => 1⟩, .pdf ⟨["y"], fun _ => 1⟩], .pdf ⟨["z"], fun _ => 1⟩] :
    List (Product Rat Rat)).map Product.factor)).map (·.map (·.map (·.obs))) = some [[["x", "y"]], [["z"]]] := by decide +kernel

end Zfit.Functor
