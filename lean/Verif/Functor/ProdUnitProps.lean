import Verif.Functor.ProdGroupProps
import Mathlib.Algebra.BigOperators.Group.List.Basic

/-! C317: the units of the observables make no difference to products of PDFs. -/

namespace Zfit.Functor

open Zfit Zfit.Dat

variable {V : Type}

/-! ### Specification -/

/-- The space with the limits of every observable in another unit. -/
def inUnit (g : String → Rat → Rat) (s : DSpace) : DSpace :=
  ⟨s.obs, s.lims.map fun ls => ls.map fun b => (s.obs.zip b).map fun e => (g e.1 e.2.1, g e.1 e.2.2)⟩

mutual
/-- The formula with every PDF replaced by another one. -/
def Product.replace (φ : Factor Rat V → Factor Rat V) : Product Rat V → Product Rat V
  | .pdf f => .pdf (φ f)
  | .prod ps => .prod (replaceProducts φ ps)

/-- The same for several formulas. -/
def replaceProducts (φ : Factor Rat V → Factor Rat V) : List (Product Rat V) → List (Product Rat V)
  | [] => []
  | p :: ps => Product.replace φ p :: replaceProducts φ ps
end

/-! ### Lemmas -/

theorem zip_zip_map (l : List String) (b : List (Rat × Rat)) (h : String × (Rat × Rat) → Rat × Rat) :
    l.zip ((l.zip b).map h) = (l.zip b).map fun e => (e.1, h e) := by
  induction l generalizing b with
  | nil => rfl
  | cons a l ih =>
    cases b with
    | nil => rfl
    | cons x b => simp [ih]

/-- an event is inside the limits in the one unit if and only if it is in the other -/
theorem contains_inUnit {g : String → Rat → Rat} (hg : ∀ o, StrictMono (g o)) (s : DSpace) (p : String → Rat) :
    (inUnit g s).contains (fun o => g o (p o)) = s.contains p := by
  unfold DSpace.contains inUnit
  cases s.lims with
  | none => rfl
  | some ls =>
    simp only [Option.map_some, List.any_map]
    congr 1
    funext b
    simp only [Function.comp_apply, zip_zip_map, List.all_map]
    congr 1
    funext e
    simp [(hg e.1).le_iff_le]

theorem proper_inUnit {g : String → Rat → Rat} {s : DSpace} (hs : s.Proper) : (inUnit g s).Proper := by
  refine ⟨hs.1, hs.2.1, fun ls hls b hb => ?_⟩
  simp only [inUnit, Option.map_eq_some_iff] at hls
  obtain ⟨ls0, h0, rfl⟩ := hls
  obtain ⟨b0, hb0, rfl⟩ := List.mem_map.1 hb
  simp [inUnit, hs.2.2 ls0 h0 b0 hb0]

variable {φ : Factor Rat V → Factor Rat V}

mutual
theorem product_leaves_replace : ∀ F : Product Rat V, (F.replace φ).leaves = F.leaves.map φ
  | .pdf f => by simp [Product.replace, Product.leaves]
  | .prod ps => by simp [Product.replace, Product.leaves, prodLeaves_replace ps]

theorem prodLeaves_replace : ∀ ps : List (Product Rat V), prodLeaves (replaceProducts φ ps) = (prodLeaves ps).map φ
  | [] => by simp [replaceProducts, prodLeaves]
  | p :: ps => by simp [replaceProducts, prodLeaves, product_leaves_replace p, prodLeaves_replace ps]
end

mutual
theorem proper_replace : ∀ F : Product Rat V, (∀ f ∈ F.leaves, (φ f).obs = f.obs) → F.Proper → (F.replace φ).Proper
  | .pdf f, h, hF => by
    simp only [Product.replace, Product.Proper, h f (by simp [Product.leaves])]
    exact hF
  | .prod ps, h, hF => by
    simp only [Product.replace, Product.Proper]
    refine ⟨?_, properAll_replace ps (by simpa [Product.leaves] using h) hF.2⟩
    have h1 := hF.1
    cases ps with
    | nil => exact absurd rfl h1
    | cons _ _ => simp [replaceProducts]

theorem properAll_replace : ∀ ps : List (Product Rat V), (∀ f ∈ prodLeaves ps, (φ f).obs = f.obs) → ProperAll ps → ProperAll (replaceProducts φ ps)
  | [], _, _ => by simp [replaceProducts, ProperAll]
  | p :: ps, h, hF => by
    simp only [replaceProducts, ProperAll]
    exact ⟨proper_replace p (fun f hf => h f (by simp [prodLeaves, hf])) hF.1, properAll_replace ps (fun f hf => h f (by simp [prodLeaves, hf])) hF.2⟩
end

/-! ### C317 -/

/-- C317: in another unit of the observables, with the limits converted accordingly, the same events are used, and if the density of each PDF is
divided by a factor of its own, the value of the product is divided by the product of these factors, for every event. -/
theorem product_unit [DivisionCommMonoid V] {F : Product Rat V} (hF : F.Proper) {g : String → Rat → Rat} (hg : ∀ o, StrictMono (g o))
    (hobs : ∀ f ∈ F.leaves, (φ f).obs = f.obs) (factor : Factor Rat V → V) (s : DSpace) (hs : s.Proper)
    (hsub : ∀ f ∈ F.leaves, ∀ o ∈ f.obs, o ∈ s.obs) (pts : List (String → Rat)) (w : Option (List Rat)) (hw : Weighted pts w)
    (hval : ∀ f ∈ F.leaves, ∀ p ∈ pts, (φ f).val (f.obs.map fun o => g o (p o)) = f.val (f.obs.map p) / factor f) :
    ∃ d d' vs, Data.fromTensor s ⟨s.obs.length, table s.obs pts⟩ w false = .ok d ∧
      Data.fromTensor (inUnit g s) ⟨s.obs.length, table s.obs (pts.map fun p o => g o (p o))⟩ w false = .ok d' ∧
      F.eval d = .ok vs ∧ vs.length = (pts.filter s.contains).length ∧ (F.replace φ).eval d' = .ok (vs.map (· / (F.leaves.map factor).prod)) := by
  obtain ⟨d, h1, h2, -⟩ := product_grouping hF hF (List.Perm.refl _) s hs hsub pts w hw
  have hF' := proper_replace F hobs hF
  obtain ⟨d', h1', h2', -⟩ := product_grouping hF' hF' (List.Perm.refl _) (inUnit g s) (proper_inUnit hs) (by
    intro f hf o ho
    rw [product_leaves_replace] at hf
    obtain ⟨f0, hf0, rfl⟩ := List.mem_map.1 hf
    rw [hobs f0 hf0] at ho
    exact hsub f0 hf0 o ho) (pts.map fun p o => g o (p o)) w (fun l hl => by rw [hw l hl, List.length_map])
  refine ⟨d, d', _, h1, h1', h2, by simp, ?_⟩
  rw [h2', product_leaves_replace, List.filter_map, List.map_map, List.map_map]
  congr 1
  have hfil : pts.filter ((inUnit g s).contains ∘ fun p o => g o (p o)) = pts.filter s.contains := by
    congr 1
    funext p
    exact contains_inUnit hg s p
  rw [hfil]
  refine List.map_congr_left fun p hp => ?_
  have hp' := (List.mem_filter.1 hp).1
  simp only [Function.comp_apply, List.map_map]
  have key : ∀ l : List (Factor Rat V), (∀ f ∈ l, f ∈ F.leaves) →
      (l.map ((fun f => f.val (f.obs.map fun o => g o (p o))) ∘ φ)).prod = (l.map fun f => f.val (f.obs.map p)).prod / (l.map factor).prod := by
    intro l
    induction l with
    | nil => simp
    | cons f l ih =>
      intro hl
      rw [List.map_cons, List.prod_cons, ih fun f' h' => hl f' (List.mem_cons_of_mem _ h'), List.map_cons, List.prod_cons, List.map_cons, List.prod_cons]
      have hf := hl f List.mem_cons_self
      simp only [Function.comp_apply]
      rw [hobs f hf, hval f hf p hp', mul_div_mul_comm]
  exact key _ fun _ h => h

/-- The hypotheses: the densities x and 1 + y, in thousandths. -/
example : let g : String → Rat → Rat := fun _ x => 1000 * x
    let f1 : Factor Rat Rat := ⟨["x"], fun r => r.getD 0 0⟩
    let f1' : Factor Rat Rat := ⟨["x"], fun r => r.getD 0 0 / 1000 / 1000⟩
    (∀ o, StrictMono (g o)) ∧ (∀ p : String → Rat, f1'.val (f1.obs.map fun o => g o (p o)) = f1.val (f1.obs.map p) / 1000) ∧
      (Product.prod [.pdf f1, .prod [.pdf f1]]).Proper := by
  refine ⟨fun _ x y h => by linarith, fun p => ?_, ?_⟩
  · simp
  · simp [Product.Proper, ProperAll]

end Zfit.Functor
