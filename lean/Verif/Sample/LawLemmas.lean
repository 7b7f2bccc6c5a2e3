import Verif.Sample.Model
import Mathlib.Probability.ProductMeasure

/-!
# Lemmas on the law of events that are picked from independent proposals

`ω p` is the proposal with the number `p`; all are independent with the law `P`.  The proposals in the set `acc` are accepted.  Which of the
accepted proposals are returned is decided by `F` from the set of accepted numbers alone, not from the values.  Then the returned events are
independent, each with the law of an accepted proposal, whatever `F` is.
-/

namespace Zfit.Sample

open MeasureTheory ENNReal

variable {ι X : Type} [MeasurableSpace X] [DecidableEq ι]

open Classical in
/-- The numbers of the accepted proposals among `S`. -/
noncomputable def acceptedNumbers (acc : Set X) (S : Finset ι) (ω : ι → X) : Finset ι := S.filter (fun p => ω p ∈ acc)

theorem mem_acceptedNumbers {acc : Set X} {S : Finset ι} {ω : ι → X} {p : ι} : p ∈ acceptedNumbers acc S ω ↔ p ∈ S ∧ ω p ∈ acc := by
  classical
  unfold acceptedNumbers
  rw [Finset.mem_filter]

/-- The set of randomness for which `T` are the accepted numbers and the `i`-th picked one is in `B i`. -/
def boxAt (acc : Set X) (B : ℕ → Set X) (N : ℕ) (T : Finset ι) (l : List ι) (p : ι) : Set X :=
  if p ∈ T then acc ∩ {x | ∀ i < N, l[i]? = some p → x ∈ B i} else accᶜ

theorem mem_boxes {acc : Set X} {B : ℕ → Set X} {N : ℕ} {S T : Finset ι} {l : List ι} (hT : T ⊆ S) (hl : ∀ p ∈ l, p ∈ T) (ω : ι → X) :
    ω ∈ Set.pi (S : Set ι) (boxAt acc B N T l) ↔
      acceptedNumbers acc S ω = T ∧ ∀ i < N, ∀ p, l[i]? = some p → ω p ∈ B i := by
  unfold boxAt
  simp only [Set.mem_pi, Finset.mem_coe]
  constructor
  · intro h
    refine ⟨?_, ?_⟩
    · ext p
      rw [mem_acceptedNumbers]
      constructor
      · rintro ⟨hS, ha⟩
        have := h p hS
        by_contra hn
        rw [if_neg hn] at this
        exact this ha
      · intro hp
        have := h p (hT hp)
        rw [if_pos hp] at this
        exact ⟨hT hp, this.1⟩
    · intro i hi p hp
      have hpT := hl p (List.mem_of_getElem? hp)
      have := h p (hT hpT)
      rw [if_pos hpT] at this
      exact this.2 i hi hp
  · rintro ⟨hacc, hB⟩ p hp
    split
    · rename_i hpT
      rw [← hacc, mem_acceptedNumbers] at hpT
      exact ⟨hpT.2, fun i hi hip => hB i hi p hip⟩
    · rename_i hpT
      rw [← hacc, mem_acceptedNumbers, not_and] at hpT
      exact hpT hp

theorem measurable_boxAt {acc : Set X} (hacc : MeasurableSet acc) {B : ℕ → Set X} (hB : ∀ i, MeasurableSet (B i)) (N : ℕ) (T : Finset ι)
    (l : List ι) (p : ι) : MeasurableSet (boxAt acc B N T l p) := by
  unfold boxAt
  split
  · refine hacc.inter ?_
    have : {x | ∀ i < N, l[i]? = some p → x ∈ B i} = ⋂ i, ⋂ (_ : i < N), ⋂ (_ : l[i]? = some p), B i := by
      ext x; simp
    rw [this]
    exact .iInter fun i => .iInter fun _ => .iInter fun _ => hB i
  · exact hacc.compl

theorem measure_boxAt (P : Measure X) {acc : Set X} (h0 : P acc ≠ 0) (h1 : P acc ≠ ∞) (B : ℕ → Set X) (N : ℕ) (T : Finset ι) (l : List ι)
    (hn : l.Nodup) (hl : ∀ p ∈ l, p ∈ T) (p : ι) :
    P (boxAt acc B N T l p) = (if p ∈ T then P acc else P accᶜ) *
      ∏ i ∈ Finset.range N, (if l[i]? = some p then P (acc ∩ B i) / P acc else 1) := by
  unfold boxAt
  by_cases hp : p ∈ T
  · simp only [if_pos hp]
    by_cases he : ∃ i < N, l[i]? = some p
    · obtain ⟨i, hi, hip⟩ := he
      have hset : {x | ∀ i < N, l[i]? = some p → x ∈ B i} = B i := by
        ext x
        simp only [Set.mem_setOf_eq]
        refine ⟨fun h => h i hi hip, fun h j _ hj => ?_⟩
        obtain ⟨h1, h1'⟩ := List.getElem?_eq_some_iff.1 hip
        obtain ⟨h2, h2'⟩ := List.getElem?_eq_some_iff.1 hj
        have : i = j := (List.Nodup.getElem_inj_iff hn).1 (h1'.trans h2'.symm)
        exact this ▸ h
      rw [hset, Finset.prod_eq_single i]
      · rw [if_pos hip, ENNReal.mul_div_cancel h0 h1]
      · intro j _ hji
        rw [if_neg]
        intro hj
        obtain ⟨h1, h1'⟩ := List.getElem?_eq_some_iff.1 hip
        obtain ⟨h2, h2'⟩ := List.getElem?_eq_some_iff.1 hj
        exact hji ((List.Nodup.getElem_inj_iff hn).1 (h2'.trans h1'.symm))
      · intro h; exact absurd (Finset.mem_range.2 hi) h
    · have hset : {x | ∀ i < N, l[i]? = some p → x ∈ B i} = Set.univ := by
        ext x
        simp only [Set.mem_setOf_eq, Set.mem_univ, iff_true]
        intro i hi hip
        exact absurd ⟨i, hi, hip⟩ he
      rw [hset, Set.inter_univ, Finset.prod_eq_one, mul_one]
      intro i hi
      rw [if_neg]
      intro hip
      exact he ⟨i, Finset.mem_range.1 hi, hip⟩
  · simp only [if_neg hp]
    rw [Finset.prod_eq_one, mul_one]
    intro i _
    rw [if_neg]
    intro hip
    exact hp (hl p (List.mem_of_getElem? hip))

/-- The picked events are independent of the choice and of each other, each with the law of an accepted proposal. -/
theorem law_of_picks (P : Measure X) [IsProbabilityMeasure P] {acc : Set X} (hacc : MeasurableSet acc) (h0 : P acc ≠ 0) (S : Finset ι)
    (F : Finset ι → Option (List ι)) (N : ℕ) (hF : ∀ T l, T ⊆ S → F T = some l → l.Nodup ∧ (∀ p ∈ l, p ∈ T) ∧ N ≤ l.length) (B : ℕ → Set X)
    (hB : ∀ i, MeasurableSet (B i)) :
    Measure.infinitePi (fun _ : ι => P)
        {ω | ∃ l, F (acceptedNumbers acc S ω) = some l ∧ ∀ i < N, ∀ p, l[i]? = some p → ω p ∈ B i} =
      Measure.infinitePi (fun _ : ι => P) {ω | ∃ l, F (acceptedNumbers acc S ω) = some l} *
        ∏ i ∈ Finset.range N, P (acc ∩ B i) / P acc := by
  have hsub : ∀ ω : ι → X, acceptedNumbers acc S ω ⊆ S := fun ω p hp => (mem_acceptedNumbers.1 hp).1
  have key : ∀ B : ℕ → Set X, (∀ i, MeasurableSet (B i)) → Measure.infinitePi (fun _ : ι => P)
      {ω | ∃ l, F (acceptedNumbers acc S ω) = some l ∧ ∀ i < N, ∀ p, l[i]? = some p → ω p ∈ B i} =
        ∑ T ∈ S.powerset, match F T with
          | none => 0
          | some _ => (∏ p ∈ S, if p ∈ T then P acc else P accᶜ) * ∏ i ∈ Finset.range N, P (acc ∩ B i) / P acc := by
    intro B hB
    obtain ⟨G, hG⟩ : ∃ G : Finset ι → Set (ι → X), G = fun T => match F T with
      | none => ∅
      | some l => Set.pi (S : Set ι) (boxAt acc B N T l) := ⟨_, rfl⟩
    have hset : {ω | ∃ l, F (acceptedNumbers acc S ω) = some l ∧ ∀ i < N, ∀ p, l[i]? = some p → ω p ∈ B i} = ⋃ T ∈ S.powerset, G T := by
      ext ω
      simp only [Set.mem_setOf_eq, Set.mem_iUnion, Finset.mem_powerset, exists_prop]
      constructor
      · rintro ⟨l, hl, hB'⟩
        refine ⟨_, hsub ω, ?_⟩
        rw [hG]
        simp only [hl]
        rw [mem_boxes (hsub ω) (hF _ _ (hsub ω) hl).2.1]
        exact ⟨rfl, hB'⟩
      · rintro ⟨T, hT, hω⟩
        rw [hG] at hω
        simp only at hω
        split at hω
        · exact absurd hω (Set.notMem_empty _)
        · rename_i l hl
          rw [mem_boxes hT (hF _ _ hT hl).2.1] at hω
          exact ⟨l, by rw [hω.1]; exact hl, hω.2⟩
    have hmeas : ∀ T, MeasurableSet (G T) := by
      intro T
      rw [hG]
      simp only
      split
      · exact MeasurableSet.empty
      · exact MeasurableSet.pi S.countable_toSet (fun p _ => measurable_boxAt hacc hB N _ _ p)
    rw [hset, measure_biUnion_finset]
    · refine Finset.sum_congr rfl fun T hT => ?_
      rw [Finset.mem_powerset] at hT
      rw [hG]
      rcases hl : F T with _ | l
      · simp only [hl]
        exact measure_empty
      · simp only [hl]
        obtain ⟨hn, hlT, hN⟩ := hF T l hT hl
        rw [Measure.infinitePi_pi _ (fun p _ => measurable_boxAt hacc hB N T l p),
          Finset.prod_congr rfl (fun p _ => measure_boxAt P h0 (measure_ne_top P _) B N T l hn hlT p), Finset.prod_mul_distrib,
          Finset.prod_comm]
        congr 1
        refine Finset.prod_congr rfl fun i hi => ?_
        have hil : i < l.length := lt_of_lt_of_le (Finset.mem_range.1 hi) hN
        rw [Finset.prod_eq_single l[i]]
        · rw [if_pos (List.getElem?_eq_getElem hil)]
        · intro p _ hp
          rw [if_neg]
          rw [List.getElem?_eq_getElem hil]
          intro h
          exact hp (Option.some.inj h).symm
        · intro h
          exact absurd (hT (hlT _ (List.getElem_mem hil))) h
    · intro T hT T' hT' hne
      have hT2 := Finset.mem_powerset.1 hT
      have hT2' := Finset.mem_powerset.1 hT'
      rw [Function.onFun, Set.disjoint_left]
      intro ω h1 h2
      rw [hG] at h1 h2
      simp only at h1 h2
      split at h1
      · exact absurd h1 (Set.notMem_empty _)
      split at h2
      · exact absurd h2 (Set.notMem_empty _)
      rename_i l hl _ l' hl'
      rw [mem_boxes hT2 (hF _ _ hT2 hl).2.1] at h1
      rw [mem_boxes hT2' (hF _ _ hT2' hl').2.1] at h2
      exact hne (h1.1.symm.trans h2.1)
    · intro T _
      exact hmeas T
  have hU := key (fun _ => Set.univ) (fun _ => MeasurableSet.univ)
  simp only [Set.mem_univ, implies_true, and_true, Set.inter_univ, ENNReal.div_self h0 (measure_ne_top P acc), Finset.prod_const_one,
    mul_one] at hU
  rw [key B hB, hU, Finset.sum_mul]
  refine Finset.sum_congr rfl fun T _ => ?_
  cases F T with
  | none => simp
  | some l => rfl

end Zfit.Sample
