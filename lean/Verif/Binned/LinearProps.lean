import Verif.Binned.Model
import Verif.Common.Except
import Mathlib.Tactic.Linarith
import Mathlib.Tactic.Ring
import Mathlib.Tactic.FieldSimp
import Mathlib.Tactic.LinearCombination
import Mathlib.Algebra.BigOperators.Group.List.Basic
import Mathlib.Algebra.Order.Floor.Ring

/-! C24: linear binning onto a regular grid. -/

namespace Zfit.Bin

open Zfit

/-- The regular grid of `m + 2` points from `a` with spacing `δ` (`tf.linspace`). -/
def regularGrid (a δ : Rat) (m : Nat) : List Rat := (List.range (m + 2)).map (fun (i : Nat) => a + i * δ)

/-- `Σ w x`, the weighted sum of positions. -/
def moment (w x : List Rat) : Rat := ((w.zip x).map (fun p => p.1 * p.2)).sum

theorem foldl_min_const {a : Rat} {l : List Rat} (h : ∀ x ∈ l, a ≤ x) : l.foldl min a = a := by
  induction l with
  | nil => rfl
  | cons b l ih =>
    rw [List.foldl_cons, min_eq_left (h b (by simp))]
    exact ih (fun x hx => h x (by simp [hx]))

theorem foldl_max_mono {a b : Rat} {l : List Rat} (hb : b ∈ a :: l) (h : ∀ x ∈ a :: l, x ≤ b) : l.foldl max a = b := by
  induction l generalizing a with
  | nil => simp at hb; exact hb.symm
  | cons c l ih =>
    rw [List.foldl_cons]
    apply ih
    · simp only [List.mem_cons] at hb ⊢
      rcases hb with rfl | rfl | hb
      · left; exact (max_eq_left (h c (by simp))).symm
      · left; exact (max_eq_right (h a (by simp))).symm
      · right; exact hb
    · intro x hx
      simp only [List.mem_cons] at hx
      rcases hx with rfl | hx
      · exact max_le (h a (by simp)) (h c (by simp))
      · exact h x (by simp [hx])

theorem minL_grid {a δ : Rat} (hδ : 0 < δ) (m : Nat) : minL (regularGrid a δ m) = a := by
  unfold regularGrid minL
  rw [List.range_succ_eq_map, List.map_cons]
  simp only [Nat.cast_zero, zero_mul, add_zero]
  apply foldl_min_const
  intro x hx
  simp only [List.map_map, List.mem_map, List.mem_range, Function.comp] at hx
  obtain ⟨i, _, rfl⟩ := hx
  have : (0 : Rat) ≤ ((i.succ : Nat) : Rat) * δ := mul_nonneg (Nat.cast_nonneg _) hδ.le
  linarith

theorem maxL_grid {a δ : Rat} (hδ : 0 < δ) (m : Nat) : maxL (regularGrid a δ m) = a + (m + 1) * δ := by
  have hmem : ∀ x ∈ regularGrid a δ m, x ≤ a + (m + 1) * δ := by
    intro x hx
    simp only [regularGrid, List.mem_map, List.mem_range] at hx
    obtain ⟨i, hi, rfl⟩ := hx
    have : (i : Rat) ≤ m + 1 := by exact_mod_cast Nat.lt_succ_iff.1 hi
    nlinarith
  have hin : a + (m + 1) * δ ∈ regularGrid a δ m := by
    simp only [regularGrid, List.mem_map, List.mem_range]
    exact ⟨m + 1, by omega, by push_cast; ring⟩
  cases hg : regularGrid a δ m with
  | nil => rw [hg] at hin; simp at hin
  | cons b l =>
    rw [hg] at hmem hin
    exact foldl_max_mono hin hmem

theorem bincount_weighted {n : Nat} {idx : List Int} {w : List Rat} (hl : w.length = idx.length)
    (h : ∀ i ∈ idx, 0 ≤ i ∧ i < n) (c : Int → Rat) :
    ((List.range n).map (fun (k : Nat) => c k * (((idx.zip w).filter (fun p => p.1 = (k : Int))).map (·.2)).sum)).sum
      = ((idx.zip w).map (fun p => c p.1 * p.2)).sum := by
  induction idx generalizing w with
  | nil => simp
  | cons i idx ih =>
    cases w with
    | nil => simp at hl
    | cons x w =>
      have ih := ih (w := w) (by simpa using hl) (fun j hj => h j (by simp [hj]))
      simp only [List.zip_cons_cons, List.map_cons, List.sum_cons]
      rw [← ih]
      obtain ⟨h0, h1⟩ := h i (by simp)
      obtain ⟨q, rfl⟩ := Int.eq_ofNat_of_zero_le h0
      have hq : q < n := by exact_mod_cast h1
      have : ∀ k : Nat, c k * ((((q : Int), x) :: idx.zip w).filter (fun p => p.1 = (k : Int)) |>.map (·.2)).sum
          = (if k = q then c q * x else 0) + c k * (((idx.zip w).filter (fun p => p.1 = (k : Int))).map (·.2)).sum := by
        intro k
        by_cases hk : k = q
        · subst hk; rw [List.filter_cons_of_pos (by simp)]; simp [mul_add]
        · rw [List.filter_cons_of_neg (by simp; omega)]; simp [hk]
      simp only [this]
      rw [List.sum_map_add]
      congr 1
      have hs : ∀ (l : List Nat), l.Nodup → q ∈ l → (l.map (fun k => if k = q then c q * x else 0)).sum = c q * x := by
        intro l
        induction l with
        | nil => intro _ h; simp at h
        | cons b l ih =>
          intro hn hm
          rw [List.nodup_cons] at hn
          rw [List.map_cons, List.sum_cons]
          by_cases hb : b = q
          · subst hb
            have : l.map (fun k => if k = b then c b * x else 0) = l.map (fun _ => (0 : Rat)) := by
              apply List.map_congr_left
              intro k hk
              rw [if_neg]; rintro rfl; exact hn.1 hk
            rw [this]; simp
          · rw [if_neg hb, zero_add]
            exact ih hn.2 (by simpa [Ne.symm hb] using hm)
      exact hs _ List.nodup_range (List.mem_range.2 hq)

theorem roll1_range (n : Nat) (f : Nat → Rat) :
    roll1 ((List.range (n + 1)).map f) = f n :: (List.range n).map f := by
  unfold roll1
  rw [List.range_succ, List.map_append]
  simp

/-- the contents rolled by one place -/
def shiftL (L : Nat → Rat) : Nat → Rat
  | 0 => 0
  | k + 1 => L k

/-- The sum `Σ c_k out_k` for the result of the binning, with any coefficients `c`. -/
theorem out_weighted {m : Nat} {idx : List Int} {fw nw : List Rat} (hf : fw.length = idx.length)
    (hn : nw.length = idx.length) (h : ∀ i ∈ idx, 0 ≤ i ∧ i < (m + 1 : Nat))
    (hlast : ∀ p ∈ idx.zip fw, p.1 = (m : Int) → p.2 = 0) :
    ∃ left right, bincount (m + 1) idx fw = .ok left ∧ bincount (m + 1) idx nw = .ok right ∧
      (((roll1 left).zip right).map (fun p => p.1 + p.2)).length = m + 1 ∧
      ∀ c : Int → Rat, (((((roll1 left).zip right).map (fun p => p.1 + p.2)).zip
        ((List.range (m + 1)).map (fun (k : Nat) => c k))).map (fun p => p.1 * p.2)).sum
        = ((idx.zip fw).map (fun p => c (p.1 + 1) * p.2)).sum + ((idx.zip nw).map (fun p => c p.1 * p.2)).sum := by
  have hneg : idx.any (· < 0) = false := by
    rw [List.any_eq_false]
    intro i hi
    have := (h i hi).1
    simp; omega
  set L : Nat → Rat := fun k => (((idx.zip fw).filter (fun p => p.1 = (k : Int))).map (·.2)).sum with hL
  set R : Nat → Rat := fun k => (((idx.zip nw).filter (fun p => p.1 = (k : Int))).map (·.2)).sum with hR
  refine ⟨(List.range (m + 1)).map L, (List.range (m + 1)).map R, ?_, ?_, ?_, ?_⟩
  · unfold bincount; simp only [hneg]; rfl
  · unfold bincount; simp only [hneg]; rfl
  · rw [roll1_range]; simp
  · intro c
    have hLm : L m = 0 := by
      rw [hL]
      apply List.sum_eq_zero
      intro x hx
      simp only [List.mem_map, List.mem_filter, decide_eq_true_eq] at hx
      obtain ⟨p, ⟨hp, hpm⟩, rfl⟩ := hx
      exact hlast p hp hpm
    rw [← bincount_weighted (n := m + 1) hf h (fun i => c (i + 1)), ← bincount_weighted (n := m + 1) hn h c]
    rw [roll1_range, hLm]
    have e1 : (0 :: (List.range m).map L) = (List.range (m + 1)).map (shiftL L) := by
      rw [List.range_succ_eq_map, List.map_cons, List.map_map]; rfl
    rw [e1, List.zip_map', List.map_map, List.zip_map', List.map_map]
    change ((List.range (m + 1)).map (fun (k : Nat) => (shiftL L k + R k) * c k)).sum
      = ((List.range (m + 1)).map (fun (k : Nat) => c (k + 1) * L k)).sum
        + ((List.range (m + 1)).map (fun (k : Nat) => c k * R k)).sum
    rw [show (List.range (m + 1)).map (fun (k : Nat) => (shiftL L k + R k) * c k)
      = (List.range (m + 1)).map (fun (k : Nat) => shiftL L k * c k + c k * R k) from
      List.map_congr_left (fun k _ => by ring), List.sum_map_add]
    congr 1
    rw [List.range_succ_eq_map, List.map_cons, List.sum_cons, List.map_map]
    simp only [shiftL, zero_mul, zero_add]
    conv_rhs => rw [← List.range_succ_eq_map, List.range_succ, List.map_append, List.sum_append]
    have e3 : (c ((m : Int) + 1)) * L m = 0 := by rw [hLm, mul_zero]
    simp only [List.map_cons, List.map_nil, List.sum_cons, List.sum_nil, add_zero]
    rw [e3, add_zero]
    congr 1
    apply List.map_congr_left
    intro k _
    simp only [Function.comp, shiftL, Nat.succ_eq_add_one, Nat.cast_add, Nat.cast_one]
    rw [mul_comm]

/-- The fraction of an event that goes to the grid point on its right. -/
def rightShare (simple : Bool) (t : Rat) : Rat :=
  if simple then (if t - (⌊t⌋ : Rat) > 1 / 2 then 1 else 0) * (t - (⌊t⌋ : Rat)) else t - (⌊t⌋ : Rat)

theorem bin_general {a δ : Rat} (hδ : 0 < δ) (m : Nat) (ps : List (Rat × Rat)) (simple : Bool)
    (hin : ∀ p ∈ ps, a ≤ p.1 ∧ p.1 ≤ a + (m + 1) * δ) :
    ∃ out, bin1dWeighted (ps.map (·.1)) (regularGrid a δ m) (some (ps.map (·.2))) simple = .ok out ∧ out.length = m + 2 ∧
      ∀ c : Int → Rat, ((out.zip ((List.range (m + 2)).map (fun (k : Nat) => c k))).map (fun p => p.1 * p.2)).sum
        = (ps.map (fun p => (c (⌊(p.1 - a) / δ⌋ + 1) * rightShare simple ((p.1 - a) / δ)
            + c ⌊(p.1 - a) / δ⌋ * (1 - rightShare simple ((p.1 - a) / δ))) * (p.2 / (ps.map (·.2)).sum))).sum := by
  set W := (ps.map (·.2)).sum with hW
  have hn : ((regularGrid a δ m).length : Rat) - 1 = m + 1 := by
    simp [regularGrid]; ring
  have hdx : (a + ((m : Rat) + 1) * δ - a) / ((m : Rat) + 1) = δ := by
    have : (m : Rat) + 1 ≠ 0 := by positivity
    field_simp
    ring
  set idx : List Int := ps.map (fun p => ⌊(p.1 - a) / δ⌋) with hidx
  set fw : List Rat := ps.map (fun p => rightShare simple ((p.1 - a) / δ) * (p.2 / W)) with hfw
  set nw : List Rat := ps.map (fun p => p.2 / W - rightShare simple ((p.1 - a) / δ) * (p.2 / W)) with hnw
  have hrange : ∀ p ∈ ps, 0 ≤ (p.1 - a) / δ ∧ (p.1 - a) / δ ≤ m + 1 := by
    intro p hp
    obtain ⟨h1, h2⟩ := hin p hp
    constructor
    · exact div_nonneg (by linarith) hδ.le
    · rw [div_le_iff₀ hδ]; linarith
  have hb : ∀ i ∈ idx, 0 ≤ i ∧ i < ((m + 1 + 1 : Nat) : Int) := by
    intro i hi
    simp only [hidx, List.mem_map] at hi
    obtain ⟨p, hp, rfl⟩ := hi
    obtain ⟨h1, h2⟩ := hrange p hp
    refine ⟨Int.floor_nonneg.2 h1, ?_⟩
    rw [Int.floor_lt]
    push_cast
    linarith
  have hlast : ∀ q ∈ idx.zip fw, q.1 = ((m + 1 : Nat) : Int) → q.2 = 0 := by
    intro q hq h1
    rw [hidx, hfw, List.zip_map'] at hq
    obtain ⟨p, hp, rfl⟩ := List.mem_map.1 hq
    obtain ⟨h2, h3⟩ := hrange p hp
    simp only at h1 ⊢
    have h4 : ((m : Rat) + 1) ≤ (p.1 - a) / δ := by
      have := Int.floor_le ((p.1 - a) / δ)
      rw [h1] at this
      push_cast at this
      exact this
    have h5 : (p.1 - a) / δ - (⌊(p.1 - a) / δ⌋ : Rat) = 0 := by
      rw [h1]; push_cast; linarith
    have h6 : rightShare simple ((p.1 - a) / δ) = 0 := by
      unfold rightShare
      rw [h5]; simp
    rw [h6, zero_mul]
  obtain ⟨left, right, hl, hr, hlen, hc⟩ := out_weighted (m := m + 1) (idx := idx) (fw := fw) (nw := nw)
    (by simp [hidx, hfw]) (by simp [hidx, hnw]) hb hlast
  refine ⟨((roll1 left).zip right).map (fun p => p.1 + p.2), ?_, hlen, ?_⟩
  · unfold bin1dWeighted
    simp only [minL_grid hδ, maxL_grid hδ, hn, hdx, Option.getD_some]
    have e1 : (((ps.map (·.1)).map (fun x => (x - a) / δ)).map (fun (t : Rat) => ⌊t⌋)) = idx := by
      simp only [List.map_map, hidx]; rfl
    have e2 : (if simple = true then (((ps.map (·.1)).map (fun x => (x - a) / δ)).map (fun (t : Rat) => t - (⌊t⌋ : Rat))).map
        (fun f => (if f > 1 / 2 then 1 else 0) * f)
        else ((ps.map (·.1)).map (fun x => (x - a) / δ)).map (fun (t : Rat) => t - (⌊t⌋ : Rat)))
        = ps.map (fun p => rightShare simple ((p.1 - a) / δ)) := by
      unfold rightShare
      cases simple <;> simp [List.map_map, Function.comp_def]
    have e3 : (ps.map (·.2)).map (fun x => x / (ps.map (·.2)).sum) = ps.map (fun p => p.2 / W) := by
      rw [List.map_map]; rfl
    rw [e1, e2, e3, List.zip_map', List.map_map]
    have e4 : ((ps.map (fun p => p.2 / W)).zip (ps.map ((fun p => p.1 * p.2) ∘
        fun p : Rat × Rat => (rightShare simple ((p.1 - a) / δ), p.2 / W)))).map (fun p => p.1 - p.2) = nw := by
      rw [List.zip_map', List.map_map]; rfl
    have e5 : ps.map ((fun p => p.1 * p.2) ∘ fun p : Rat × Rat => (rightShare simple ((p.1 - a) / δ), p.2 / W)) = fw := rfl
    rw [e4, e5]
    have e6 : (regularGrid a δ m).length = m + 1 + 1 := by simp [regularGrid]
    rw [e6, hl, hr]
    rfl
  · intro c
    rw [hc c, hidx, hfw, hnw, List.zip_map', List.zip_map', List.map_map, List.map_map, ← List.sum_map_add]
    congr 1
    apply List.map_congr_left
    intro p _
    simp only [Function.comp]
    ring

theorem sum_map_div (ps : List (Rat × Rat)) (f : Rat × Rat → Rat) (c : Rat) :
    (ps.map (fun p => f p / c)).sum = (ps.map f).sum / c := by
  induction ps with
  | nil => simp
  | cons a l ih => simp only [List.map_cons, List.sum_cons, ih]; ring

theorem zip_const_sum (out : List Rat) (n : Nat) (h : out.length = n) :
    ((out.zip ((List.range n).map (fun (_ : Nat) => (1 : Rat)))).map (fun p => p.1 * p.2)).sum = out.sum := by
  have : ∀ (l r : List Rat), (∀ x ∈ r, x = 1) → l.length = r.length → ((l.zip r).map (fun p => p.1 * p.2)).sum = l.sum := by
    intro l
    induction l with
    | nil => intro r _ _; simp
    | cons a l ih =>
      intro r hr hl
      cases r with
      | nil => simp at hl
      | cons b r =>
        simp only [List.zip_cons_cons, List.map_cons, List.sum_cons]
        rw [ih r (fun x hx => hr x (by simp [hx])) (by simpa using hl), hr b (by simp), mul_one]
  apply this
  · intro x hx
    obtain ⟨_, _, rfl⟩ := List.mem_map.1 hx
    rfl
  · simp [h]

/-- **C24, total.** With either method the contents of the binning of weighted data within a regular grid sum to one
(the weights are normalised). -/
theorem binning_total {a δ : Rat} (hδ : 0 < δ) (m : Nat) (data w : List Rat) (simple : Bool)
    (hlen : w.length = data.length) (hw : w.sum ≠ 0) (hin : ∀ x ∈ data, a ≤ x ∧ x ≤ a + (m + 1) * δ) :
    ∃ out, bin1dWeighted data (regularGrid a δ m) (some w) simple = .ok out ∧ out.length = (regularGrid a δ m).length ∧
      out.sum = 1 := by
  have h1 : (data.zip w).map (·.1) = data := List.map_fst_zip (by omega)
  have h2 : (data.zip w).map (·.2) = w := List.map_snd_zip (by omega)
  obtain ⟨out, ho, hl, hc⟩ := bin_general hδ m (data.zip w) simple (fun p hp => hin p.1 (List.of_mem_zip hp).1)
  rw [h1, h2] at ho
  refine ⟨out, ho, by simp [hl, regularGrid], ?_⟩
  have := hc (fun _ => 1)
  rw [zip_const_sum out _ hl, h2] at this
  rw [this]
  have e : ∀ p : Rat × Rat, (1 * rightShare simple ((p.1 - a) / δ) + 1 * (1 - rightShare simple ((p.1 - a) / δ))) * (p.2 / w.sum)
      = p.2 / w.sum := by intro p; ring
  simp only [e]
  rw [sum_map_div, h2, div_self hw]

/-- **C24.** The linear binning of weighted data within a regular grid: the contents sum to one and the weighted mean
of the grid points is the weighted mean of the data. -/
theorem linear_binning_conserves {a δ : Rat} (hδ : 0 < δ) (m : Nat) (data w : List Rat) (hlen : w.length = data.length)
    (hw : w.sum ≠ 0) (hin : ∀ x ∈ data, a ≤ x ∧ x ≤ a + (m + 1) * δ) :
    ∃ out, bin1dWeighted data (regularGrid a δ m) (some w) false = .ok out ∧ out.length = (regularGrid a δ m).length ∧
      out.sum = 1 ∧ moment out (regularGrid a δ m) = moment w data / w.sum := by
  obtain ⟨out, ho, hl, hs⟩ := binning_total hδ m data w false hlen hw hin
  refine ⟨out, ho, hl, hs, ?_⟩
  have h1 : (data.zip w).map (·.1) = data := List.map_fst_zip (by omega)
  have h2 : (data.zip w).map (·.2) = w := List.map_snd_zip (by omega)
  obtain ⟨out', ho', hl', hc⟩ := bin_general hδ m (data.zip w) false (fun p hp => hin p.1 (List.of_mem_zip hp).1)
  rw [h1, h2, ho] at ho'
  cases ho'
  have := hc (fun i => a + i * δ)
  rw [h2] at this
  unfold moment regularGrid
  simp only [Int.cast_natCast] at this
  rw [this]
  have e : ∀ p : Rat × Rat, ((a + ((⌊(p.1 - a) / δ⌋ + 1 : Int) : Rat) * δ) * rightShare false ((p.1 - a) / δ)
      + (a + (⌊(p.1 - a) / δ⌋ : Rat) * δ) * (1 - rightShare false ((p.1 - a) / δ))) * (p.2 / w.sum)
      = (p.2 * p.1) / w.sum := by
    intro p
    have h3 : (a + ((⌊(p.1 - a) / δ⌋ + 1 : Int) : Rat) * δ) * rightShare false ((p.1 - a) / δ)
      + (a + (⌊(p.1 - a) / δ⌋ : Rat) * δ) * (1 - rightShare false ((p.1 - a) / δ)) = p.1 := by
      simp only [rightShare, Bool.false_eq_true, if_false]
      push_cast
      have : (p.1 - a) / δ * δ = p.1 - a := by field_simp
      linear_combination this
    rw [h3]; ring
  simp only [e]
  rw [sum_map_div (data.zip w) (fun p => p.2 * p.1)]
  congr 2
  clear e this hc ho hs hl hl' h1 h2 hin hw
  induction data generalizing w with
  | nil => simp
  | cons x data ih =>
    cases w with
    | nil => simp
    | cons y w => simp only [List.zip_cons_cons, List.map_cons, ih w (by simpa using hlen)]

/-- Unweighted data counts as data with equal weights. -/
theorem binning_unweighted (data grid : List Rat) (simple : Bool) :
    bin1dWeighted data grid none simple = bin1dWeighted data grid (some (data.map (fun _ => 1))) simple := rfl

/-- An event below the grid makes the binning fail. -/
theorem binning_below_raises {a δ : Rat} (hδ : 0 < δ) (m : Nat) (data w : List Rat) (simple : Bool)
    (hx : ∃ x ∈ data, x < a) : bin1dWeighted data (regularGrid a δ m) (some w) simple = .error .invalidArgument := by
  obtain ⟨x, hx, hxa⟩ := hx
  unfold bin1dWeighted
  have hn : ((regularGrid a δ m).length : Rat) - 1 = m + 1 := by
    simp [regularGrid]; ring
  have hdx : (a + ((m : Rat) + 1) * δ - a) / ((m : Rat) + 1) = δ := by
    have : (m : Rat) + 1 ≠ 0 := by positivity
    field_simp
    ring
  simp only [minL_grid hδ, maxL_grid hδ, hn, hdx]
  have : (((data.map (fun x => (x - a) / δ)).map (fun (t : Rat) => ⌊t⌋)).any (· < 0)) = true := by
    simp only [List.any_eq_true, List.mem_map, decide_eq_true_eq]
    refine ⟨_, ⟨_, ⟨x, hx, rfl⟩, rfl⟩, ?_⟩
    rw [Int.floor_lt]
    push_cast
    exact div_neg_of_neg_of_pos (by linarith) hδ
  unfold bincount
  rw [if_pos this]
  rfl

/-! ### Witnesses -/

/-- non-vacuity: an event between grid points, one on the last point -/
example : bin1dWeighted [1/4, 2] (regularGrid 0 1 1) (some [1, 3]) false = .ok [3/16, 1/16, 3/4] := by decide +kernel

example := linear_binning_conserves (a := 0) (δ := 1) (by norm_num) 1 [1/4, 2] [1, 3] rfl (by norm_num)
  (by intro x hx; simp at hx; rcases hx with rfl | rfl <;> norm_num)

/-- The other method does not conserve the mean. -/
example : bin1dWeighted [1/4] (regularGrid 0 1 1) (some [1]) true = .ok [1, 0, 0] := by decide +kernel

/-- Events above the grid are dropped silently. -/
example : bin1dWeighted [1/4, 7] (regularGrid 0 1 1) none false = .ok [3/8, 1/8, 0] := by decide +kernel

end Zfit.Bin
