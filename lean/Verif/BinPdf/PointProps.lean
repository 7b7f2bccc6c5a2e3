import Verif.BinPdf.PointModel
import Verif.Binned.FillLemmas
import Mathlib.Data.Rat.Floor

/-!
# C36: a binned PDF at unbinned points
-/

namespace Zfit.BinPdf

open Zfit Zfit.Bin

theorem all_zip_map {β : Type*} (l : List β) (f g : β → Nat) (q : Nat × Nat → Bool) :
    ((l.map f).zip (l.map g)).all q = l.all (fun a => q (f a, g a)) := by
  induction l with
  | nil => rfl
  | cons a l ih => simp only [List.map_cons, List.zip_cons_cons, List.all_cons, ih]

theorem gather_inside {α : Type*} [Zero α] {space : BSpace} (hs : space.Proper) (values : List Nat → α) {p : String → Rat}
    {f : String → Nat} (h : ∀ a ∈ space.axes, inBin true a.edges (f a.name) (p a.name)) :
    gatherAt space values p = values (space.axes.map (fun a => f a.name)) := by
  have hf : ∀ a ∈ space.axes, tfpFindBin a.edges (p a.name) = some (f a.name) := fun a ha =>
    (findBin_iff (hs.2 a ha)).2 (h a ha)
  have hidx : flowIndex space p = space.axes.map (fun a => f a.name + 1) := by
    unfold flowIndex
    exact List.map_congr_left (fun a ha => by rw [hf a ha])
  unfold gatherAt padded binShape
  rw [hidx, all_zip_map, if_pos, List.map_map]
  · rfl
  · rw [List.all_eq_true]
    intro a ha
    have := findBin_lt (hs.2 a ha).2 (hf a ha)
    rw [decide_eq_true_iff]
    exact ⟨by omega, by omega⟩

theorem gather_outside {α : Type*} [Zero α] {space : BSpace} (hs : space.Proper) (values : List Nat → α) {p : String → Rat}
    (h : ∃ a ∈ space.axes, inRange true a.edges (p a.name) = false) : gatherAt space values p = 0 := by
  obtain ⟨a, ha, hout⟩ := h
  have hf : tfpFindBin a.edges (p a.name) = none := by
    rw [← Option.not_isSome_iff_eq_none]
    intro hn
    rw [show tfpFindBin a.edges (p a.name) = findBin true a.edges (p a.name) from rfl, findBin_isSome (hs.2 a ha)] at hn
    rw [hn] at hout
    cases hout
  unfold gatherAt padded binShape flowIndex
  rw [all_zip_map, if_neg]
  intro hall
  rw [List.all_eq_true] at hall
  have := hall a ha
  rw [hf, decide_eq_true_iff] at this
  exact absurd this.1 (Nat.not_succ_le_zero 0)

/-! ## C36 -/

/-- C36: a point in a bin (in every axis) has exactly that bin's value and its logarithm; a point outside in any axis has
density zero. -/
theorem binned_pdf_at_points (space : BSpace) (hs : space.Proper) (values : List Nat → ENNReal) (p : String → Rat) :
    (∀ f : String → Nat, (∀ a ∈ space.axes, inBin true a.edges (f a.name) (p a.name)) →
      pdfAt space values p = values (space.axes.map (fun a => f a.name)) ∧
      logPdfAt space values p = (values (space.axes.map (fun a => f a.name))).log) ∧
    ((∃ a ∈ space.axes, inRange true a.edges (p a.name) = false) → pdfAt space values p = 0) :=
  ⟨fun f h => ⟨gather_inside hs values h, gather_inside hs _ h⟩, gather_outside hs values⟩

/-- C36 as far as it holds: inside the binning `log_pdf` is the logarithm of `pdf`. Missing from the full claim: the cases of
`binned_log_pdf_outside_violated`. -/
theorem binned_log_pdf_partial (space : BSpace) (hs : space.Proper) (values : List Nat → ENNReal) (p : String → Rat)
    (h : ∀ a ∈ space.axes, inRange true a.edges (p a.name) = true) :
    logPdfAt space values p = (pdfAt space values p).log := by
  have hex : ∀ a ∈ space.axes, inBin true a.edges ((tfpFindBin a.edges (p a.name)).getD 0) (p a.name) := by
    intro a ha
    have h1 : (findBin true a.edges (p a.name)).isSome := by rw [findBin_isSome (hs.2 a ha)]; exact h a ha
    obtain ⟨k, hk⟩ := Option.isSome_iff_exists.1 h1
    rw [show tfpFindBin a.edges (p a.name) = some k from hk, Option.getD_some]
    exact (findBin_iff (hs.2 a ha)).1 hk
  -- the bin as a function of the axis' name
  have hname : ∀ a ∈ space.axes, space.axes.find? (fun b => b.name = a.name) = some a := by
    intro a ha
    rcases hf : space.axes.find? (fun b => b.name = a.name) with _ | b
    · exact absurd (List.find?_eq_none.1 hf a ha) (by simp)
    · have h1 := List.find?_some hf
      have h2 := List.mem_of_find?_eq_some hf
      have h3 : b.name = a.name := by simpa using h1
      rw [hf, List.inj_on_of_nodup_map hs.1 h2 ha h3]
  let f : String → Nat := fun n => match space.axes.find? (fun b => b.name = n) with
    | some a => (tfpFindBin a.edges (p a.name)).getD 0
    | none => 0
  have hf : ∀ a ∈ space.axes, inBin true a.edges (f a.name) (p a.name) := by
    intro a ha
    simp only [f, hname a ha]
    exact hex a ha
  obtain ⟨h1, -⟩ := binned_pdf_at_points space hs values p
  obtain ⟨h2, h3⟩ := h1 f hf
  rw [h2, h3]

/-- C36 is violated: at *every* point outside the binning of *every* binned pdf `log_pdf` is 0, the logarithm of a density
of one, while `pdf` is 0. -/
theorem binned_log_pdf_outside_violated (space : BSpace) (hs : space.Proper) (values : List Nat → ENNReal) (p : String → Rat)
    (h : ∃ a ∈ space.axes, inRange true a.edges (p a.name) = false) :
    logPdfAt space values p = 0 ∧ (pdfAt space values p).log = ⊥ := by
  refine ⟨gather_outside hs _ h, ?_⟩
  rw [show pdfAt space values p = 0 from gather_outside hs values h, ENNReal.log_zero]

/-- non-vacuity: two axes; a point inside and one outside in the second axis only -/
def exSpace : BSpace := ⟨[⟨"x", [0, 1, 3]⟩, ⟨"y", [0, 2, 4]⟩]⟩

theorem exSpace_proper : exSpace.Proper := by
  refine ⟨by decide +kernel, ?_⟩
  intro a ha
  simp only [exSpace, List.mem_cons, List.not_mem_nil, or_false] at ha
  rcases ha with rfl | rfl <;> exact ⟨by decide +kernel, by decide⟩

example : ∀ a ∈ exSpace.axes, inBin true a.edges ((fun n => if n = "x" then 1 else 0) a.name)
    ((fun n => if n = "x" then (2 : Rat) else 1) a.name) := by decide +kernel

example : ∃ a ∈ exSpace.axes, inRange true a.edges ((fun n => if n = "x" then (2 : Rat) else 5) a.name) = false := by
  decide +kernel

end Zfit.BinPdf
