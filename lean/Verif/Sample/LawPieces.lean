import Verif.Sample.LawProps
import Mathlib.MeasureTheory.Measure.Haar.OfBasis
import Mathlib.MeasureTheory.Measure.Lebesgue.Basic

/-!
# Properties C273 and C274: limits in several pieces

* C273 `split_near_share`, `proposals_uniform`
* C274 `expected_accepted_partial`, `narrow_piece_violated`
-/

namespace Zfit.Sample

open Zfit MeasureTheory ENNReal

section Split

variable {K : Type} [Field K] [LinearOrder K] [IsStrictOrderedRing K] [FloorRing K]

theorem go_near (n : ℕ) (tot : K) (ps : List (Piece K)) : ∀ (produced : ℤ) (i : ℕ) (hi : i < (split.go n tot produced ps).length)
    (hi' : i < ps.length),
    (i + 1 < ps.length → ((split.go n tot produced ps)[i] : K) ≤ n * (ps[i].volume / tot) ∧
      n * (ps[i].volume / tot) < (split.go n tot produced ps)[i] + 1) ∧
    (i + 1 = ps.length → (n - produced : K) - n * (((ps.take i).map Piece.volume).sum / tot) ≤ (split.go n tot produced ps)[i] ∧
      ((split.go n tot produced ps)[i] : K) ≤ (n - produced : K) - n * (((ps.take i).map Piece.volume).sum / tot) + i) := by
  induction ps with
  | nil => intro _ i _ hi'; simp at hi'
  | cons p ps ih =>
    intro produced i hi hi'
    cases ps with
    | nil =>
      have : i = 0 := by simpa using hi'
      subst this
      simp [split.go]
    | cons q qs =>
      cases i with
      | zero =>
        constructor
        · intro _
          simp only [split.go, List.getElem_cons_zero]
          exact ⟨Int.floor_le _, Int.lt_floor_add_one _⟩
        · intro h
          simp at h
      | succ i =>
        obtain ⟨h1, h2⟩ := ih (produced + ⌊(n : K) * (p.volume / tot)⌋) i (by simpa [split.go] using hi) (by simpa using hi')
        constructor
        · intro h
          simpa [split.go] using h1 (by simpa using h)
        · intro h
          obtain ⟨h3, h4⟩ := h2 (by simpa using h)
          have f1 := Int.floor_le ((n : K) * (p.volume / tot))
          have f2 := Int.lt_floor_add_one ((n : K) * (p.volume / tot))
          simp only [split.go, List.getElem_cons_succ, List.take_succ_cons, List.map_cons, List.sum_cons, add_div, mul_add]
          push_cast at h3 h4 ⊢
          constructor
          · linarith
          · linarith

/-- C273.  Of `n` uniform proposals each piece of the limits gets its share in the total volume, rounded down, and the last one what is missing,
which is less than one for each of the others more than its share. -/
theorem split_near_share (n : ℕ) (pieces : List (Piece K)) (hv : ∀ p ∈ pieces, 0 < p.volume) (i : ℕ) (hi : i < pieces.length) :
    ∃ k : ℤ, (split n pieces)[i]? = some k ∧
      (i + 1 < pieces.length → (k : K) ≤ n * (pieces[i].volume / (pieces.map Piece.volume).sum) ∧
        n * (pieces[i].volume / (pieces.map Piece.volume).sum) < k + 1) ∧
      (i + 1 = pieces.length → n * (pieces[i].volume / (pieces.map Piece.volume).sum) ≤ k ∧
        (k : K) ≤ n * (pieces[i].volume / (pieces.map Piece.volume).sum) + i) := by
  have hl : (split n pieces).length = pieces.length := go_length _ _ _ _
  have hpos : 0 < (pieces.map Piece.volume).sum := by
    refine List.sum_pos _ ?_ ?_
    · intro x hx
      obtain ⟨q, hq, rfl⟩ := List.mem_map.1 hx
      exact hv q hq
    · intro h
      rw [List.map_eq_nil_iff] at h
      subst h
      simp at hi
  obtain ⟨h1, h2⟩ := go_near n (pieces.map Piece.volume).sum pieces 0 i (by rw [go_length]; exact hi) hi
  refine ⟨(split n pieces)[i]'(by omega), List.getElem?_eq_getElem _, h1, fun h => ?_⟩
  obtain ⟨h3, h4⟩ := h2 h
  have hsum : ((pieces.take i).map Piece.volume).sum + pieces[i].volume = (pieces.map Piece.volume).sum := by
    have : pieces = pieces.take i ++ [pieces[i]] := by
      have := List.take_append_drop i pieces
      rw [List.drop_eq_getElem_cons hi, List.drop_eq_nil_of_le (by omega)] at this
      exact this.symm
    conv_rhs => rw [this]
    rw [List.map_append, List.sum_append]
    simp
  have hdiv : ((pieces.take i).map Piece.volume).sum / (pieces.map Piece.volume).sum =
      1 - pieces[i].volume / (pieces.map Piece.volume).sum := by
    rw [eq_sub_iff_add_eq, ← add_div, hsum, div_self hpos.ne']
  rw [hdiv] at h3 h4
  push_cast at h3 h4
  refine ⟨?_, ?_⟩
  · calc (n : K) * (pieces[i].volume / (pieces.map Piece.volume).sum) = n - 0 - n * (1 - pieces[i].volume / (pieces.map Piece.volume).sum) := by ring
      _ ≤ _ := h3
  · refine le_trans h4 (le_of_eq ?_)
    ring

/-- Ten proposals over three equal pieces: 3, 3 and 4. -/
example : split 10 ([⟨[0], [1]⟩, ⟨[2], [3]⟩, ⟨[5], [6]⟩] : List Piece) = [3, 3, 4] := by decide +kernel

/-- C274 is violated.  If the first piece of the limits has less than one in 800000 of the volume, then no event is ever sampled in it, whatever
the pdf and its integral over this piece, the number of events and the random numbers.  (At most 800000 proposals are made in one pass, and
the number of proposals in the piece is rounded down to zero in each pass.) -/
theorem narrow_piece_violated (narrow : Piece K) (rest : List (Piece K)) (hrest : rest ≠ []) (hv : ∀ p ∈ narrow :: rest, 0 < p.volume)
    (hp : ∀ p ∈ narrow :: rest, p.lower.length = p.upper.length)
    (hlu : ∀ p ∈ narrow :: rest, ∀ (i : ℕ) (l u : K), p.lower[i]? = some l → p.upper[i]? = some u → l < u)
    (hsmall : narrow.volume * 800000 < ((narrow :: rest).map Piece.volume).sum)
    (hdisj : ∀ p ∈ rest, ∀ x, p.contains x → ¬ narrow.contains x)
    (c : Cfg (List K) K) (env : Env (List K) K) (hl : env.Lawful) (uniform : ℕ → ℕ → ℕ → List K × K)
    (hu : ∀ k i j, ∀ p ∈ narrow :: rest, (uniform k i j).1.length = p.lower.length)
    (hr : ∀ k i j, ∀ x ∈ (uniform k i j).1, 0 ≤ x ∧ x < 1)
    (hdraw : ∀ k m, (env.draw k m).sample = (uniformSample m (narrow :: rest) (uniform k)).1)
    (fuel : ℕ) (r : List (List K)) (h : acceptReject c env fuel = some (.ok r)) : ∀ e ∈ r, ¬ narrow.contains e := by
  intro e he
  obtain ⟨k, m, b, j, t, b', -, hm, hs, -⟩ := ((accept_reject_exact c env hl fuel).1 r h).2 e he
  have hmem := List.mem_of_getElem? hs
  rw [hdraw] at hmem
  obtain ⟨-, -, blocks, hb, hlen, hall⟩ := uniform_sample_exact m (narrow :: rest) (uniform k) (by simp) hv hp hlu (hu k) (hr k)
  rw [hb] at hmem
  cases hall with
  | cons h1 h2 =>
    rename_i b0 bs
    have htot : 0 < ((narrow :: rest).map Piece.volume).sum := by
      have := hv narrow List.mem_cons_self
      nlinarith
    have hzero : b0 = [] := by
      have hfirst : (split m (narrow :: rest))[0]? = some (b0.length : ℤ) := by rw [← hlen]; rfl
      obtain ⟨q, qs, rfl⟩ := List.exists_cons_of_ne_nil hrest
      have hk : (split m (narrow :: q :: qs))[0]? = some ⌊(m : K) * (narrow.volume / ((narrow :: q :: qs).map Piece.volume).sum)⌋ := rfl
      rw [hk] at hfirst
      have hf : ⌊(m : K) * (narrow.volume / ((narrow :: q :: qs).map Piece.volume).sum)⌋ ≤ 0 := by
        rw [← Int.lt_add_one_iff, zero_add, Int.floor_lt, Int.cast_one, ← mul_div_assoc, div_lt_one htot]
        have hm' : (m : K) ≤ 800000 := by exact_mod_cast hm
        have := hv narrow List.mem_cons_self
        nlinarith
      have := Option.some.inj hfirst
      rw [this] at hf
      exact List.eq_nil_of_length_eq_zero (by omega)
    rw [hzero] at hmem
    simp only [List.flatten_cons, List.nil_append, List.mem_flatten] at hmem
    obtain ⟨bl, hbl, hebl⟩ := hmem
    obtain ⟨i, hi, rfl⟩ := List.getElem_of_mem hbl
    have hlen2 := h2.length_eq
    have := h2.get (i := i) (by omega) hi
    simp only [List.get_eq_getElem] at this
    exact hdisj _ (List.getElem_mem _) e (this e hebl)

/-- Such limits: from 0 to 1 and from 10 to 1000010. -/
example : (⟨[0], [1]⟩ : Piece).volume * 800000 < (([⟨[0], [1]⟩, ⟨[10], [1000010]⟩] : List Piece).map Piece.volume).sum ∧
    ∀ x : List ℚ, (⟨[10], [1000010]⟩ : Piece).contains x → ¬ (⟨[0], [1]⟩ : Piece).contains x := by
  refine ⟨by decide +kernel, ?_⟩
  rintro x ⟨h1, h2, h3⟩ ⟨h4, h5, h6⟩
  obtain ⟨a, rfl⟩ := List.length_eq_one_iff.1 h1
  have := h3 0 a 10 1000010 rfl rfl rfl
  have := h6 0 a 0 1 rfl rfl rfl
  linarith

/-- A call for one event on these limits, with the maximum given (so that two proposals are made). The pdf is a million million on the narrow piece and 1 on the wide one: all but one in a
million events should be in the narrow piece. -/
def exNarrow : Cfg (List ℚ) := ⟨fun e => if e.headD 0 < 5 then 1000000000000 else 1, 1, some 1000000000000, 1 / 2, true, true⟩

/-- All uniform numbers are 1/2, all thresholds 0. -/
def exNarrowEnv : Env (List ℚ) where
  draw _ m :=
    let r := uniformSample m [⟨[0], [1]⟩, ⟨[10], [1000010]⟩] (fun _ _ => ([1 / 2], 0))
    ⟨r.1, r.2, List.replicate m 1, some (List.replicate m 1), m⟩
  binom _ _ _ := 0
  shuffle := id

/-- The call returns, with an event in the wide piece. -/
example : acceptReject exNarrow exNarrowEnv 1 = some (.ok [[500010]]) := by decide +kernel

end Split

section Expected

variable {d : ℕ}

/-- A box, given by its lower and upper corner, as a piece of the limits. -/
def boxPiece (b : (Fin d → ℝ) × (Fin d → ℝ)) : Piece ℝ := ⟨List.ofFn b.1, List.ofFn b.2⟩

/-- The points of a box. -/
def inBox (b : (Fin d → ℝ) × (Fin d → ℝ)) : Set (Fin d → ℝ) := Set.pi Set.univ (fun a => Set.Ico (b.1 a) (b.2 a))

/-- The volume of a box. -/
def boxVolume (b : (Fin d → ℝ) × (Fin d → ℝ)) : ℝ := ∏ a, (b.2 a - b.1 a)

/-- The law of a row of independent numbers uniform in [0, 1). -/
noncomputable def uniformRow (d : ℕ) : Measure (Fin d → ℝ) := Measure.pi (fun _ => volume.restrict (Set.Ico 0 1))

/-- `uniformSample` draws from the stream `ω`: `ω (i, j)` is the `j`-th row of uniform numbers for the `i`-th piece, with its threshold.  The
weights are 1. -/
noncomputable def piecesDraw (boxes : List ((Fin d → ℝ) × (Fin d → ℝ))) (m : ℕ) (ω : ℕ × ℕ → (Fin d → ℝ) × ℝ) : Draw (List ℝ) ℝ :=
  let r := uniformSample m (boxes.map boxPiece) (fun i j => (List.ofFn (ω (i, j)).1, (ω (i, j)).2))
  ⟨r.1, r.2, List.replicate m 1, some (List.replicate m 1), m⟩

theorem volume_boxPiece (b : (Fin d → ℝ) × (Fin d → ℝ)) : (boxPiece b).volume = boxVolume b := by
  unfold boxPiece Piece.volume boxVolume
  have : List.zipWith (fun u l => u - l) (List.ofFn b.2) (List.ofFn b.1) = List.ofFn (fun a => b.2 a - b.1 a) := by
    apply List.ext_getElem <;> simp
  simp only [this, List.prod_ofFn]

/-- Scaling into the piece, as a function of the coordinates. -/
def stretch (b : (Fin d → ℝ) × (Fin d → ℝ)) (u : Fin d → ℝ) : Fin d → ℝ := fun a => u a * (b.2 a - b.1 a) + b.1 a

theorem toPiece_ofFn (b : (Fin d → ℝ) × (Fin d → ℝ)) (u : Fin d → ℝ) : toPiece (boxPiece b) (List.ofFn u) = List.ofFn (stretch b u) := by
  unfold toPiece boxPiece stretch
  apply List.ext_getElem <;> simp

theorem measurable_stretch (b : (Fin d → ℝ) × (Fin d → ℝ)) : Measurable (stretch b) := by
  unfold stretch
  fun_prop

theorem uniform_stretched (l u : ℝ) (h : l < u) :
    (volume.restrict (Set.Ico (0 : ℝ) 1)).map (fun x => x * (u - l) + l) = ENNReal.ofReal (u - l)⁻¹ • volume.restrict (Set.Ico l u) := by
  have h0 : 0 < u - l := sub_pos.2 h
  have hm : Measurable (fun x : ℝ => x * (u - l) + l) := by fun_prop
  ext s hs
  rw [Measure.map_apply hm hs, Measure.restrict_apply' measurableSet_Ico, Measure.smul_apply, Measure.restrict_apply' measurableSet_Ico,
    smul_eq_mul]
  have hpre : (fun x : ℝ => x * (u - l) + l) ⁻¹' s ∩ Set.Ico 0 1 = (fun x => x * (u - l)) ⁻¹' ((fun y => y + l) ⁻¹' (s ∩ Set.Ico l u)) := by
    ext x
    simp only [Set.mem_inter_iff, Set.mem_preimage, Set.mem_Ico]
    refine and_congr_right fun _ => ⟨fun ⟨h1, h2⟩ => ⟨by nlinarith, by nlinarith⟩, fun ⟨h1, h2⟩ => ⟨?_, ?_⟩⟩
    · by_contra hc
      push Not at hc
      nlinarith
    · by_contra hc
      push Not at hc
      nlinarith
  rw [hpre, Real.volume_preimage_mul_right h0.ne', measure_preimage_add_right, abs_of_pos (inv_pos.2 h0)]

/-- C273.  The proposals within a piece are uniform: a row of uniform numbers scaled into the box has the constant density 1 / volume there. -/
theorem proposals_uniform (b : (Fin d → ℝ) × (Fin d → ℝ)) (hb : ∀ a, b.1 a < b.2 a) :
    (∀ u, toPiece (boxPiece b) (List.ofFn u) = List.ofFn (stretch b u)) ∧
    (uniformRow d).map (stretch b) = ENNReal.ofReal (boxVolume b)⁻¹ • volume.restrict (inBox b) := by
  refine ⟨toPiece_ofFn b, ?_⟩
  have hfin : IsProbabilityMeasure (volume.restrict (Set.Ico (0 : ℝ) 1)) := ⟨by simp⟩
  have h1 : (uniformRow d).map (stretch b) = Measure.pi (fun a => (volume.restrict (Set.Ico (0 : ℝ) 1)).map (fun x => x * (b.2 a - b.1 a) + b.1 a)) := by
    unfold uniformRow stretch
    have hp : ∀ a, IsProbabilityMeasure ((volume.restrict (Set.Ico (0 : ℝ) 1)).map (fun x => x * (b.2 a - b.1 a) + b.1 a)) :=
      fun a => Measure.isProbabilityMeasure_map (by fun_prop)
    exact Measure.pi_map_pi (f := fun a x => x * (b.2 a - b.1 a) + b.1 a) (fun a => by fun_prop)
  rw [h1]
  have hp : ∀ a, IsProbabilityMeasure ((volume.restrict (Set.Ico (0 : ℝ) 1)).map (fun x => x * (b.2 a - b.1 a) + b.1 a)) :=
    fun a => Measure.isProbabilityMeasure_map (by fun_prop)
  refine Measure.pi_eq fun s hs => ?_
  rw [Measure.smul_apply, Measure.restrict_apply (MeasurableSet.univ_pi hs)]
  unfold inBox
  rw [← Set.pi_inter_distrib, volume_pi_pi, smul_eq_mul]
  have hfac : ENNReal.ofReal (boxVolume b)⁻¹ = ∏ a, ENNReal.ofReal (b.2 a - b.1 a)⁻¹ := by
    unfold boxVolume
    rw [← Finset.prod_inv_distrib, ENNReal.ofReal_prod_of_nonneg]
    intro a _
    exact inv_nonneg.2 (sub_nonneg.2 (hb a).le)
  rw [hfac, ← Finset.prod_mul_distrib]
  refine Finset.prod_congr rfl fun a _ => ?_
  rw [uniform_stretched _ _ (hb a), Measure.smul_apply, Measure.restrict_apply (hs a), smul_eq_mul]

/-- The unit square scaled into the box from (1, 10) to (3, 13). -/
example : (uniformRow 2).map (stretch (![1, 10], ![3, 13])) = ENNReal.ofReal (boxVolume (![1, 10], ![3, 13]))⁻¹ • volume.restrict (inBox (![1, 10], ![3, 13])) :=
  (proposals_uniform _ (by intro a; fin_cases a <;> norm_num)).2

/-- The law of all uniform numbers of a pass. -/
noncomputable def passLaw (d : ℕ) : Measure (ℕ × ℕ → (Fin d → ℝ) × ℝ) :=
  Measure.infinitePi (fun _ => (uniformRow d).prod (volume.restrict (Set.Ico 0 1)))

theorem accepted_const (c : Cfg (List ℝ) ℝ) (σ : ℝ) (L : List (List ℝ × ℝ)) (ws : List ℝ) (wm : Option (List ℝ)) (nd : ℕ) :
    accepted c ⟨L.map (·.1), L.map (·.2), ws, wm, nd⟩ (List.replicate L.length σ) =
      (L.filter (fun q => decide (q.2 * σ < c.prob q.1))).map (·.1) := by
  unfold accepted
  induction L with
  | nil => rfl
  | cons q L ih =>
    simp only [List.map_cons, List.length_cons, List.replicate_succ, List.zip_cons_cons, List.filter_cons] at ih ⊢
    by_cases h : q.2 * σ < c.prob q.1
    · simp only [h, decide_true, if_true, List.map_cons, ih]
    · simp only [h, decide_false, Bool.false_eq_true, if_false, ih]

theorem countP_range (P : ℕ → Bool) (k : ℕ) : (((List.range k).countP P : ℕ) : ℝ≥0∞) = ∑ j ∈ Finset.range k, if P j = true then 1 else 0 := by
  induction k with
  | zero => simp
  | succ k ih =>
    rw [List.range_succ, List.countP_append, Nat.cast_add, ih, Finset.sum_range_succ]
    congr 1
    by_cases h : P k = true <;> simp [h]

/-- The number of proposals in the `i`-th piece. -/
noncomputable def numberIn (boxes : List ((Fin d → ℝ) × (Fin d → ℝ))) (m i : ℕ) : ℕ := ((split m (boxes.map boxPiece)).getD i 0).toNat

theorem blocks_eq (boxes : List ((Fin d → ℝ) × (Fin d → ℝ))) (m : ℕ) (ω : ℕ × ℕ → (Fin d → ℝ) × ℝ) :
    ((boxes.map boxPiece).zip (split m (boxes.map boxPiece))).zipIdx.map
      (fun t => (List.range t.1.2.toNat).map (fun j => (toPiece t.1.1 (List.ofFn (ω (t.2, j)).1), (ω (t.2, j)).2))) =
    (List.finRange boxes.length).map (fun i : Fin boxes.length => (List.range (numberIn boxes m i)).map
      (fun j => (List.ofFn (stretch boxes[i] (ω (i, j)).1), (ω (i, j)).2))) := by
  have hl : (split m (boxes.map boxPiece)).length = boxes.length := by
    unfold split
    rw [go_length, List.length_map]
  apply List.ext_getElem
  · simp [hl]
  · intro i h1 h2
    have hi : i < boxes.length := by simpa using h2
    simp only [List.getElem_map, List.getElem_zipIdx, List.getElem_zip, List.getElem_finRange, toPiece_ofFn, zero_add, numberIn]
    rw [List.getD_eq_getElem?_getD, List.getElem?_eq_getElem (by rw [hl]; exact hi), Option.getD_some]
    rfl

open Classical in
theorem count_accepted (boxes : List ((Fin d → ℝ) × (Fin d → ℝ))) (hne : boxes ≠ []) (hb : ∀ b ∈ boxes, ∀ a, b.1 a < b.2 a)
    (c : Cfg (List ℝ) ℝ) (σ : ℝ) (m : ℕ) (A : Set (Fin d → ℝ)) (ω : ℕ × ℕ → (Fin d → ℝ) × ℝ) :
    (((accepted c (piecesDraw boxes m ω) (List.replicate m σ)).countP (fun e => decide (∃ x ∈ A, e = List.ofFn x)) : ℕ) : ℝ≥0∞) =
      ∑ i : Fin boxes.length, ∑ j ∈ Finset.range (numberIn boxes m i),
        Set.indicator {ω : ℕ × ℕ → (Fin d → ℝ) × ℝ | stretch boxes[i] (ω (i, j)).1 ∈ A ∧
          (ω (i, j)).2 * σ < c.prob (List.ofFn (stretch boxes[i] (ω (i, j)).1))} 1 ω := by
  obtain ⟨L, hL⟩ : ∃ L, L = ((List.finRange boxes.length).map (fun i : Fin boxes.length => (List.range (numberIn boxes m i)).map
      (fun j => (List.ofFn (stretch boxes[i] (ω (i, j)).1), (ω (i, j)).2)))).flatten := ⟨_, rfl⟩
  have hdraw : piecesDraw boxes m ω = ⟨L.map (·.1), L.map (·.2), List.replicate m 1, some (List.replicate m 1), m⟩ := by
    unfold piecesDraw uniformSample
    simp only [blocks_eq]
    rw [hL]
  have hlen : L.length = m := by
    have hv : ∀ p ∈ boxes.map boxPiece, 0 < p.volume := by
      intro p hp
      obtain ⟨b, hbm, rfl⟩ := List.mem_map.1 hp
      rw [volume_boxPiece]
      exact Finset.prod_pos fun a _ => sub_pos.2 (hb b hbm a)
    have hne' : boxes.map boxPiece ≠ [] := by simpa using hne
    obtain ⟨h1, h2, h3⟩ := uniform_split m (boxes.map boxPiece) hne' hv
    rw [List.length_map] at h1
    have hsum : ((L.length : ℕ) : ℤ) = (split m (boxes.map boxPiece)).sum := by
      rw [hL, List.length_flatten, List.map_map]
      have : split m (boxes.map boxPiece) = (List.finRange boxes.length).map (fun i : Fin boxes.length => ((numberIn boxes m i : ℕ) : ℤ)) := by
        apply List.ext_getElem
        · simp [h1]
        · intro i hi1 hi2
          simp only [List.getElem_map, List.getElem_finRange, numberIn]
          simp only [List.getD_eq_getElem?_getD, Fin.val_cast, List.getElem?_eq_getElem hi1, Option.getD_some]
          have := h2 _ (List.getElem_mem hi1)
          omega
      rw [this]
      clear * -
      induction (List.finRange boxes.length) with
      | nil => rfl
      | cons a l ih => rw [List.map_cons, List.sum_cons, List.map_cons, List.sum_cons, Nat.cast_add, ih]; simp
    rw [h3] at hsum
    exact_mod_cast hsum
  rw [hdraw]
  conv_lhs => rw [← hlen]
  rw [accepted_const, List.countP_map, List.countP_filter, hL, List.countP_flatten, List.map_map, ← List.ofFn_eq_map, List.sum_ofFn]
  rw [Nat.cast_sum]
  refine Finset.sum_congr rfl fun i _ => ?_
  simp only [Function.comp_apply, List.countP_map]
  rw [countP_range]
  refine Finset.sum_congr rfl fun j _ => ?_
  simp only [Function.comp_apply, Bool.and_eq_true, decide_eq_true_eq, Set.indicator_apply, Set.mem_setOf_eq, Pi.one_apply]
  have : (∃ x ∈ A, List.ofFn (stretch boxes[i] (ω (↑i, j)).1) = List.ofFn x) ↔ stretch boxes[i] (ω (↑i, j)).1 ∈ A := by
    constructor
    · rintro ⟨x, hx, he⟩
      rw [List.ofFn_injective he]
      exact hx
    · intro h
      exact ⟨_, h, rfl⟩
  simp only [this]

theorem stretched_accepted (b : (Fin d → ℝ) × (Fin d → ℝ)) (hb : ∀ a, b.1 a < b.2 a) (p : (Fin d → ℝ) → ℝ) (hp : Measurable p) (σ : ℝ)
    (hpb : ∀ x ∈ inBox b, 0 ≤ p x ∧ p x ≤ σ) (A : Set (Fin d → ℝ)) (hA : MeasurableSet A) :
    (uniformRow d).prod (volume.restrict (Set.Ico (0 : ℝ) 1)) {q | stretch b q.1 ∈ A ∧ q.2 * σ < p (stretch b q.1)} =
      ENNReal.ofReal (boxVolume b)⁻¹ * (ENNReal.ofReal σ⁻¹ * ∫⁻ x in A ∩ inBox b, ENNReal.ofReal (p x)) := by
  have hU : IsProbabilityMeasure (volume.restrict (Set.Ico (0 : ℝ) 1)) := ⟨by simp⟩
  have hR : IsProbabilityMeasure (uniformRow d) := by unfold uniformRow; infer_instance
  have hT : MeasurableSet {q : (Fin d → ℝ) × ℝ | q.1 ∈ A ∧ q.2 * σ < p q.1} :=
    (measurable_fst hA).inter (measurableSet_lt (measurable_snd.mul_const _) (hp.comp measurable_fst))
  have hpre : {q : (Fin d → ℝ) × ℝ | stretch b q.1 ∈ A ∧ q.2 * σ < p (stretch b q.1)} =
      (Prod.map (stretch b) id) ⁻¹' {q : (Fin d → ℝ) × ℝ | q.1 ∈ A ∧ q.2 * σ < p q.1} := rfl
  have hbox : MeasurableSet (inBox b) := MeasurableSet.univ_pi fun a => measurableSet_Ico
  rw [hpre, ← Measure.map_apply ((measurable_stretch b).prodMap measurable_id) hT, ← Measure.map_prod_map _ _ (measurable_stretch b) measurable_id,
    Measure.map_id, (proposals_uniform b hb).2, Measure.prod_apply hT, lintegral_smul_measure, smul_eq_mul]
  congr 1
  calc ∫⁻ x in inBox b, (volume.restrict (Set.Ico (0 : ℝ) 1)) (Prod.mk x ⁻¹' {q : (Fin d → ℝ) × ℝ | q.1 ∈ A ∧ q.2 * σ < p q.1})
      = ∫⁻ x in inBox b, A.indicator (fun x => ENNReal.ofReal σ⁻¹ * ENNReal.ofReal (p x)) x := by
        refine setLIntegral_congr_fun hbox fun x hx => ?_
        obtain ⟨h0, h1⟩ := hpb x hx
        by_cases hxA : x ∈ A
        · have : Prod.mk x ⁻¹' {q : (Fin d → ℝ) × ℝ | q.1 ∈ A ∧ q.2 * σ < p q.1} = {t | t * σ < p x} := by
            ext t
            simp [hxA]
          rw [this, threshold_prob _ _ h0 h1, Set.indicator_of_mem hxA, ← ENNReal.ofReal_mul (inv_nonneg.2 (h0.trans h1))]
          congr 1
          rw [div_eq_mul_inv, mul_comm]
        · have : Prod.mk x ⁻¹' {q : (Fin d → ℝ) × ℝ | q.1 ∈ A ∧ q.2 * σ < p q.1} = ∅ := by
            ext t
            simp [hxA]
          rw [this, Set.indicator_of_notMem hxA]
          simp
    _ = ENNReal.ofReal σ⁻¹ * ∫⁻ x in A ∩ inBox b, ENNReal.ofReal (p x) := by
        rw [lintegral_indicator hA, Measure.restrict_restrict hA, lintegral_const_mul _ (by fun_prop)]

open Classical in
/-- C274.  The expected number of accepted events in a region in one pass: in each box the number of proposals, times the mean of the pdf over
the region in this box divided by the scaling. -/
theorem expected_accepted (boxes : List ((Fin d → ℝ) × (Fin d → ℝ))) (hne : boxes ≠ []) (hb : ∀ b ∈ boxes, ∀ a, b.1 a < b.2 a)
    (c : Cfg (List ℝ) ℝ) (hp : Measurable fun x : Fin d → ℝ => c.prob (List.ofFn x)) (σ : ℝ)
    (hpb : ∀ b ∈ boxes, ∀ x ∈ inBox b, 0 ≤ c.prob (List.ofFn x) ∧ c.prob (List.ofFn x) ≤ σ) (m : ℕ) (A : Set (Fin d → ℝ))
    (hA : MeasurableSet A) :
    ∫⁻ ω, (((accepted c (piecesDraw boxes m ω) (List.replicate m σ)).countP (fun e => decide (∃ x ∈ A, e = List.ofFn x)) : ℕ) : ℝ≥0∞) ∂passLaw d =
      ∑ i : Fin boxes.length, (numberIn boxes m i : ℝ≥0∞) *
        (ENNReal.ofReal (boxVolume boxes[i])⁻¹ * (ENNReal.ofReal σ⁻¹ * ∫⁻ x in A ∩ inBox boxes[i], ENNReal.ofReal (c.prob (List.ofFn x)))) := by
  have hU : IsProbabilityMeasure (volume.restrict (Set.Ico (0 : ℝ) 1)) := ⟨by simp⟩
  have hR : IsProbabilityMeasure (uniformRow d) := by unfold uniformRow; infer_instance
  have hS : ∀ i : Fin boxes.length, MeasurableSet {q : (Fin d → ℝ) × ℝ | stretch boxes[i] q.1 ∈ A ∧
      q.2 * σ < c.prob (List.ofFn (stretch boxes[i] q.1))} := fun i =>
    ((measurable_stretch _).comp measurable_fst hA).inter
      (measurableSet_lt (measurable_snd.mul_const _) (hp.comp ((measurable_stretch _).comp measurable_fst)))
  have hSω : ∀ (i : Fin boxes.length) (j : ℕ), MeasurableSet {ω : ℕ × ℕ → (Fin d → ℝ) × ℝ | stretch boxes[i] (ω (i, j)).1 ∈ A ∧
      (ω (i, j)).2 * σ < c.prob (List.ofFn (stretch boxes[i] (ω (i, j)).1))} := fun i j =>
    (measurable_pi_apply ((i : ℕ), j) : Measurable fun ω : ℕ × ℕ → (Fin d → ℝ) × ℝ => ω ((i : ℕ), j)) (hS i)
  simp only [count_accepted boxes hne hb c σ m A]
  rw [lintegral_finsetSum _ (fun i _ => Finset.measurable_sum _ fun j _ => measurable_one.indicator (hSω i j))]
  refine Finset.sum_congr rfl fun i _ => ?_
  rw [lintegral_finsetSum _ (fun j _ => measurable_one.indicator (hSω i j))]
  have hone : ∀ j, ∫⁻ ω, Set.indicator {ω : ℕ × ℕ → (Fin d → ℝ) × ℝ | stretch boxes[i] (ω (i, j)).1 ∈ A ∧
      (ω (i, j)).2 * σ < c.prob (List.ofFn (stretch boxes[i] (ω (i, j)).1))} 1 ω ∂passLaw d =
      ENNReal.ofReal (boxVolume boxes[i])⁻¹ * (ENNReal.ofReal σ⁻¹ * ∫⁻ x in A ∩ inBox boxes[i], ENNReal.ofReal (c.prob (List.ofFn x))) := by
    intro j
    rw [lintegral_indicator_one (hSω i j)]
    have hpre : {ω : ℕ × ℕ → (Fin d → ℝ) × ℝ | stretch boxes[i] (ω (i, j)).1 ∈ A ∧
        (ω (i, j)).2 * σ < c.prob (List.ofFn (stretch boxes[i] (ω (i, j)).1))} =
        (fun ω => ω ((i : ℕ), j)) ⁻¹' {q : (Fin d → ℝ) × ℝ | stretch boxes[i] q.1 ∈ A ∧ q.2 * σ < c.prob (List.ofFn (stretch boxes[i] q.1))} := rfl
    unfold passLaw
    rw [hpre, (measurePreserving_eval_infinitePi (fun _ : ℕ × ℕ => (uniformRow d).prod (volume.restrict (Set.Ico (0 : ℝ) 1))) ((i : ℕ), j)).measure_preimage
      (hS i).nullMeasurableSet]
    exact stretched_accepted boxes[i] (hb _ (List.getElem_mem _)) (fun x => c.prob (List.ofFn x)) hp σ (hpb _ (List.getElem_mem _)) A hA
  simp only [hone, Finset.sum_const, Finset.card_range, nsmul_eq_mul]

open Classical in
/-- C274, partial.  One pass with `m` uniform proposals over boxes of the limits, where the number of proposals in each box is exactly its share
in the volume (no rounding): the expected number of accepted events in a region is proportional to the integral of the pdf over the region
within the limits.  Missing from the full claim: numbers of proposals that have to be rounded; the claim is false then, see
`narrow_piece_violated`. -/
theorem expected_accepted_partial (boxes : List ((Fin d → ℝ) × (Fin d → ℝ))) (hne : boxes ≠ []) (hb : ∀ b ∈ boxes, ∀ a, b.1 a < b.2 a)
    (c : Cfg (List ℝ) ℝ) (hp : Measurable fun x : Fin d → ℝ => c.prob (List.ofFn x)) (σ : ℝ)
    (hpb : ∀ b ∈ boxes, ∀ x ∈ inBox b, 0 ≤ c.prob (List.ofFn x) ∧ c.prob (List.ofFn x) ≤ σ) (m : ℕ)
    (hshare : ∀ i (h : i < boxes.length), (((split m (boxes.map boxPiece)).getD i 0 : ℤ) : ℝ) = m * (boxVolume boxes[i] / (boxes.map boxVolume).sum)) :
    ∃ κ : ℝ≥0∞, κ = ENNReal.ofReal (m / ((boxes.map boxVolume).sum * σ)) ∧ ∀ A : Set (Fin d → ℝ), MeasurableSet A →
      ∫⁻ ω, (((accepted c (piecesDraw boxes m ω) (List.replicate m σ)).countP (fun e => decide (∃ x ∈ A, e = List.ofFn x)) : ℕ) : ℝ≥0∞) ∂passLaw d =
        κ * (boxes.map (fun b => ∫⁻ x in A ∩ inBox b, ENNReal.ofReal (c.prob (List.ofFn x)))).sum := by
  refine ⟨_, rfl, fun A hA => ?_⟩
  rw [expected_accepted boxes hne hb c hp σ hpb m A hA]
  have hvol : ∀ b ∈ boxes, 0 < boxVolume b := fun b hbm => Finset.prod_pos fun a _ => sub_pos.2 (hb b hbm a)
  have hsum : 0 < (boxes.map boxVolume).sum := by
    refine List.sum_pos _ ?_ (by simpa using hne)
    intro x hx
    obtain ⟨b, hbm, rfl⟩ := List.mem_map.1 hx
    exact hvol b hbm
  have hlist : (boxes.map (fun b => ∫⁻ x in A ∩ inBox b, ENNReal.ofReal (c.prob (List.ofFn x)))).sum =
      ∑ i : Fin boxes.length, ∫⁻ x in A ∩ inBox boxes[i], ENNReal.ofReal (c.prob (List.ofFn x)) := by
    rw [← List.sum_ofFn]
    congr 1
    apply List.ext_getElem <;> simp
  rw [hlist, Finset.mul_sum]
  refine Finset.sum_congr rfl fun i _ => ?_
  rw [← mul_assoc, ← mul_assoc]
  congr 1
  have hv := hvol boxes[i] (List.getElem_mem _)
  have hnum : (numberIn boxes m i : ℝ≥0∞) = ENNReal.ofReal (m * (boxVolume boxes[i] / (boxes.map boxVolume).sum)) := by
    have h1 := hshare i i.2
    have h0 : 0 ≤ (split m (boxes.map boxPiece)).getD i 0 := by
      have : (0 : ℝ) ≤ (((split m (boxes.map boxPiece)).getD i 0 : ℤ) : ℝ) := by
        rw [h1]
        exact mul_nonneg (Nat.cast_nonneg m) (div_nonneg hv.le hsum.le)
      exact_mod_cast this
    have h2 : ((numberIn boxes m i : ℕ) : ℝ) = m * (boxVolume boxes[i] / (boxes.map boxVolume).sum) := by
      have h3 : ((numberIn boxes m i : ℕ) : ℤ) = (split m (boxes.map boxPiece)).getD i 0 := Int.toNat_of_nonneg h0
      have h4 : ((numberIn boxes m i : ℕ) : ℝ) = (((numberIn boxes m i : ℕ) : ℤ) : ℝ) := by push_cast; rfl
      rw [h4, h3, h1]
      rfl
    rw [← h2, ENNReal.ofReal_natCast]
  rw [hnum, ← ENNReal.ofReal_mul (mul_nonneg (Nat.cast_nonneg m) (div_nonneg hv.le hsum.le)), ← ENNReal.ofReal_mul]
  · congr 1
    rcases eq_or_ne σ 0 with h | h
    · rw [h]; simp
    · field_simp
  · exact mul_nonneg (mul_nonneg (Nat.cast_nonneg m) (div_nonneg hv.le hsum.le)) (inv_nonneg.2 hv.le)

/-- Four proposals over the boxes from 0 to 1 and from 2 to 3: two in each. -/
example : ∀ i (h : i < ([(![0], ![1]), (![2], ![3])] : List ((Fin 1 → ℝ) × (Fin 1 → ℝ))).length),
    (((split 4 (([(![0], ![1]), (![2], ![3])] : List ((Fin 1 → ℝ) × (Fin 1 → ℝ))).map boxPiece)).getD i 0 : ℤ) : ℝ) =
      (4 : ℕ) * (boxVolume ([(![0], ![1]), (![2], ![3])] : List ((Fin 1 → ℝ) × (Fin 1 → ℝ)))[i] /
        (([(![0], ![1]), (![2], ![3])] : List ((Fin 1 → ℝ) × (Fin 1 → ℝ))).map boxVolume).sum) := by
  have hf : ⌊(4 : ℝ) / 2⌋ = 2 := by
    rw [Int.floor_eq_iff]
    norm_num
  intro i h
  have : i = 0 ∨ i = 1 := by simp at h; omega
  rcases this with rfl | rfl <;>
    simp [split, split.go, boxVolume, volume_boxPiece] <;> norm_num [hf]

end Expected

end Zfit.Sample
