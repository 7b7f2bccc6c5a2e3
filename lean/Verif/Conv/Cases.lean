import Verif.Conv.Props
import Mathlib.Tactic.NormNum

/-! C94: where the convolution is not what it should be, its range, translations, the constructor. -/

namespace Zfit.Conv

open Zfit Finset Spec

variable {K : Type} [Field K] [LinearOrder K] [IsStrictOrderedRing K]

/-- The width of the result is always too small: the variance is less than the sum of the variances of the function and the kernel, for
every convolution that can be set up (three points or more) and every kernel with a positive variance. -/
theorem width_violated [FloorRing K] {lf uf lk uk : K} {n : ℕ} {g : Grid K} (h : mkGrid lf uf lk uk n = .ok g) (hk : lk < uk)
    (hn : n % 2 = 1) (h1 : 1 < n) (f k : K → K)
    (hf : ∀ j, j < g.nF → (j < n / 2 ∨ g.nF ≤ j + n / 2) → f (g.xF j) = 0)
    (hF : total g.nF (fun j => f (g.xF j)) ≠ 0) (hK : total g.nK (fun m => k (g.xK m)) ≠ 0)
    (hv : 0 < variance g.nK (fun m => k (g.xK m)) g.xK) :
    variance g.nF (convolved g f k) (fun i => g.xF i + g.shift) <
      variance g.nF (fun j => f (g.xF j)) g.xF + variance g.nK (fun m => k (g.xK m)) g.xK := by
  rw [variance_sum (setup_grid_ok h hk hn h1) f k hf hF hK]
  obtain ⟨-, h0, h1⟩ := kernel_scaled h hk hn h1
  have : (g.stepF / g.stepK) ^ 2 < 1 := by nlinarith
  nlinarith

/-- The grid for a function on (0, 4) and a kernel on (-1, 1) with 3 points. -/
def exampleGrid : Grid ℚ := ⟨-1, 5, 9, -1, 1, 3⟩

theorem exampleGrid_setup : mkGrid (0 : ℚ) 4 (-1) 1 3 = .ok exampleGrid := by decide +kernel

theorem exampleGrid_ok : exampleGrid.Ok 1 := setup_grid_ok exampleGrid_setup (by norm_num) (by norm_num) (by norm_num)

/-- A function with a peak at 2. -/
def peak (y : ℚ) : ℚ := if y = 2 then 1 else 0

/-- The full claim of C94 fails: a peak at 2 smeared by a kernel with the three points -1, 0, 1 has to be seen at 1, 2, 3, and is seen
at 5/4, 2, 11/4: the value at 11/4 is not the sum of kernel times function over the kernel points. The hypotheses of `width_violated` and
of `distribution_of_sum` hold for it. -/
theorem convolution_violated :
    mkGrid (0 : ℚ) 4 (-1) 1 3 = .ok exampleGrid ∧ exampleGrid.xF 5 + exampleGrid.shift = 11 / 4 ∧
      unnormalized exampleGrid peak (fun _ => 1) (11 / 4) = 1 ∧
      smear exampleGrid.nK (fun _ => 1) exampleGrid.xK (cut (-1) 5 peak) (11 / 4) = 0 ∧
      unnormalized exampleGrid peak (fun _ => 1) 3 < smear exampleGrid.nK (fun _ => 1) exampleGrid.xK (cut (-1) 5 peak) 3 := by
  refine ⟨exampleGrid_setup, ?_, ?_, ?_, ?_⟩ <;> decide +kernel

example : (∀ j, j < exampleGrid.nF → (j < 3 / 2 ∨ exampleGrid.nF ≤ j + 3 / 2) → peak (exampleGrid.xF j) = 0) ∧
    total exampleGrid.nF (fun j => peak (exampleGrid.xF j)) ≠ 0 ∧
    total exampleGrid.nK (fun m => (fun _ => (1 : ℚ)) (exampleGrid.xK m)) ≠ 0 ∧
    0 < variance exampleGrid.nK (fun m => (fun _ => 1) (exampleGrid.xK m)) exampleGrid.xK := by
  decide +kernel

example : variance exampleGrid.nF (convolved exampleGrid peak fun _ => 1) (fun i => exampleGrid.xF i + exampleGrid.shift) = 3 / 8 ∧
    variance exampleGrid.nF (fun j => peak (exampleGrid.xF j)) exampleGrid.xF = 0 ∧
    variance exampleGrid.nK (fun _ => 1) exampleGrid.xK = 2 / 3 := by
  decide +kernel

/-- For a kernel with symmetric limits the range is large enough: at every point of the grid within the limits of the function no value
of the function is missing. -/
theorem range_sufficient_partial [FloorRing K] {lf uf u : K} {n : ℕ} {g : Grid K} (h : mkGrid lf uf (-u) u n = .ok g) (hu : 0 < u)
    (hn : n % 2 = 1) (h1 : 1 < n) (f k : K → K) {i : ℕ} (hi : i < g.nF) (hx : lf ≤ g.xF i + g.shift ∧ g.xF i + g.shift ≤ uf) :
    unnormalized g f k (g.xF i + g.shift) = smear g.nK (fun m => k (g.xK m)) g.offset f (g.xF i + g.shift) := by
  have hk : -u < u := by linarith
  have ok := setup_grid_ok h hk hn h1
  obtain ⟨a, b, c, d, e, x, hx0, hx1, hx2, hx3⟩ := setup_points h hk (by omega)
  rw [value_at_points_partial ok f k hi]
  unfold smear
  refine Finset.sum_congr rfl fun m hm => ?_
  show _ * cut _ _ f (g.xF i + g.shift - g.offset m) = _
  congr 1
  have hm' : m ≤ 2 * (n / 2) := by have := Finset.mem_range.1 hm; omega
  have hsh : g.shift = 0 := by unfold Grid.shift; rw [a, b]; ring
  have hlo : -u ≤ g.offset m ∧ g.offset m ≤ u := by
    obtain ⟨-, r0, r1⟩ := kernel_scaled h hk hn h1
    unfold Grid.offset
    rw [hsh, zero_add, sub_zero]
    have hc : (0 : K) < (n / 2 : ℕ) := by exact_mod_cast ok.pos
    have hK : g.stepK * ((n / 2 : ℕ) : K) = u := by
      have hnk : (g.nK : K) = 2 * ((n / 2 : ℕ) : K) + 1 := by rw [ok.odd]; push_cast; ring
      unfold Grid.stepK
      rw [a, b, hnk]; field_simp; ring
    have hxk : g.xK m = g.stepK * m - u := by rw [ok.xK_eq, hsh, mul_sub, hK]; ring
    have hm2 : (m : K) ≤ 2 * ((n / 2 : ℕ) : K) := by exact_mod_cast hm'
    have hp := ok.stepK_pos
    have hlow : -u ≤ g.xK m := by
      rw [hxk]; have := mul_nonneg hp.le (Nat.cast_nonneg (α := K) m); linarith
    have hup : g.xK m ≤ u := by
      rw [hxk]
      have := mul_le_mul_of_nonneg_left hm2 hp.le
      linarith
    constructor
    · nlinarith
    · nlinarith
  unfold cut
  rw [if_pos]
  rw [hx2, hx3]
  constructor <;> linarith [hlo.1, hlo.2, hx.1, hx.2]

example : (0 : ℚ) ≤ exampleGrid.xF 5 + exampleGrid.shift ∧ exampleGrid.xF 5 + exampleGrid.shift ≤ 4 := by decide +kernel

/-- For a kernel with other limits the range is wrong (the lower limit of the kernel is added to the lower limit of the function, instead
of its upper limit subtracted): a function on (0, 4) and a kernel on (1, 3). The function, which is 1 from 0 to 4, is not evaluated
below 1. At `x = 3` all of the needed values lie between 0 and 4, their sum is 3, the pdf is 2. -/
theorem range_violated :
    ∃ g : Grid ℚ, mkGrid (0 : ℚ) 4 1 3 3 = .ok g ∧ g.xF 0 + g.shift = 3 ∧
      (∀ m, m < g.nK → 0 ≤ 3 - g.offset m ∧ 3 - g.offset m ≤ 4) ∧
      smear g.nK (fun _ => 1) g.offset (cut 0 4 fun _ => 1) 3 = 3 ∧ unnormalized g (cut 0 4 fun _ => 1) (fun _ => 1) 3 = 2 := by
  refine ⟨⟨1, 7, 9, 1, 3, 3⟩, ?_, ?_, ?_, ?_, ?_⟩ <;> decide +kernel

/-- Moving the function and its limits moves the pdf. -/
theorem translation [FloorRing K] {lf uf lk uk : K} {n : ℕ} {g : Grid K} (h : mkGrid lf uf lk uk n = .ok g) (hk : lk < uk)
    (hn : n % 2 = 1) (h1 : 1 < n) (a : K) :
    ∃ g', mkGrid (lf + a) (uf + a) lk uk n = .ok g' ∧
      ∀ f k x, unnormalized g' (fun y => f (y - a)) k (x + a) = unnormalized g f k x := by
  have ok := setup_grid_ok h hk hn h1
  obtain ⟨hv, e1, e2, e3, e4, e5, e6⟩ := mkGrid_eq h
  have hs : uf + a + uk - (lf + a + lk) = uf + uk - (lf + lk) := by ring
  refine ⟨⟨g.lowerF + a, g.upperF + a, g.nF, lk, uk, n⟩, ?_, ?_⟩
  · unfold mkGrid
    dsimp only
    rw [if_neg (by linarith), hs, ← e4]
    congr 2
    · rw [e5]; ring
    · rw [e6]; ring
  · intro f k x
    have hc : ∀ i, convolved ⟨g.lowerF + a, g.upperF + a, g.nF, lk, uk, n⟩ (fun y => f (y - a)) k i = convolved g f k i := by
      intro i
      have hnF := ok.two
      have hxF : ∀ j, Grid.xF (⟨g.lowerF + a, g.upperF + a, g.nF, lk, uk, n⟩ : Grid K) j - a = g.xF j := by
        intro j
        rw [g.xF_eq hnF, Grid.xF_eq (⟨g.lowerF + a, g.upperF + a, g.nF, lk, uk, n⟩ : Grid K) hnF]
        unfold Grid.stepF
        dsimp only
        ring
      have hxK : ∀ j, Grid.xK (⟨g.lowerF + a, g.upperF + a, g.nF, lk, uk, n⟩ : Grid K) j = g.xK j := by
        intro j
        unfold Grid.xK
        rw [e1, e2, e3]
      unfold convolved
      simp only [hxF, hxK, e3]
    unfold unnormalized
    have hsh : Grid.shift (⟨g.lowerF + a, g.upperF + a, g.nF, lk, uk, n⟩ : Grid K) = g.shift := by
      unfold Grid.shift; rw [e1, e2]
    rw [show convolved ⟨g.lowerF + a, g.upperF + a, g.nF, lk, uk, n⟩ (fun y => f (y - a)) k = convolved g f k from funext hc, hsh]
    unfold interpRegular
    dsimp only
    have i1 : x + a - (g.lowerF + a + g.shift) = x - (g.lowerF + g.shift) := by ring
    have i2 : g.upperF + a + g.shift - (g.lowerF + a + g.shift) = g.upperF + g.shift - (g.lowerF + g.shift) := by ring
    rw [i1, i2]

/-- One point (`n=0` or `n=1`): the kernel is only evaluated at its lower limit; if it is zero there, the pdf is zero everywhere. -/
theorem one_point_violated [FloorRing K] {lf uf lk uk : K} {g : Grid K} (h : mkGrid lf uf lk uk (nKernel (some 0)) = .ok g)
    (f k : K → K) (hk : k lk = 0) (x : K) : unnormalized g f k x = 0 := by
  obtain ⟨-, e1, e2, e3, -⟩ := mkGrid_eq h
  have hn : g.nK = 1 := e3
  have : convolved g f k = fun _ => 0 := by
    funext i
    unfold convolved sameCorrelation
    rw [hn]
    simp [Grid.xK, Kde.linspace, hn, e1, hk]
  unfold unnormalized interpRegular
  rw [this]
  simp

example : ∃ g, mkGrid (0 : ℚ) 4 (-1) 1 (nKernel (some 0)) = .ok g := ⟨⟨-1, 5, 3, -1, 1, 1⟩, by decide +kernel⟩

/-! ## The constructor -/

/-- A convolution is accepted exactly if the interpolation is known, the limits are one range each and the kernel is not wider than the
function; the range of the function and the number of points are then those of `setup_points`. -/
theorem setup_accepted [FloorRing K] (sf sk : List (K × K)) (limF limK : Option (List (K × K))) (n : Option ℕ)
    (toInt : String → Option ℤ) (interpolation : Option (List String)) (i : Interp) :
    (∃ g, setup sf sk limF limK n toInt interpolation = .ok (i, g)) ↔
      parseInterp toInt interpolation = .ok i ∧
      ∃ lf uf lk uk, limF.getD sf = [(lf, uf)] ∧ limK.getD sk = [(lk, uk)] ∧ uk - lk ≤ uf - lf := by
  have one : ∀ (s : List (K × K)) r, oneRange s = .ok r ↔ s = [r] := by
    intro s r
    unfold oneRange
    match s with
    | [] => simp
    | [a] => simp
    | a :: b :: t => simp
  constructor
  · rintro ⟨g, h⟩
    unfold setup at h
    cases hp : parseInterp toInt interpolation with
    | error e => rw [hp] at h; cases h
    | ok i' =>
      cases hf : oneRange (limF.getD sf) with
      | error e => rw [hp, hf] at h; cases h
      | ok r =>
        cases hk : oneRange (limK.getD sk) with
        | error e => rw [hp, hf, hk] at h; cases h
        | ok q =>
          cases hg : mkGrid r.1 r.2 q.1 q.2 (nKernel n) with
          | error e => simp only [hp, hf, hk, bind, Except.bind, hg] at h; cases h
          | ok g' =>
            simp only [hp, hf, hk, bind, Except.bind, hg] at h
            cases h
            exact ⟨rfl, r.1, r.2, q.1, q.2, (one _ _).1 hf, (one _ _).1 hk, (mkGrid_eq hg).1⟩
  · rintro ⟨hi, lf, uf, lk, uk, hf, hk, hv⟩
    have hg : ∃ g, mkGrid lf uf lk uk (nKernel n) = .ok g := by
      unfold mkGrid
      dsimp only
      rw [if_neg (not_lt.2 hv)]
      exact ⟨_, rfl⟩
    obtain ⟨g, hg⟩ := hg
    refine ⟨g, ?_⟩
    unfold setup
    simp only [hi, (one _ _).2 hf, (one _ _).2 hk, bind, Except.bind, hg, pure, Except.pure]

/-- What was set up: the grid for the limits that were given, or those of the spaces, with the number of points made odd. -/
theorem setup_grid [FloorRing K] {sf sk : List (K × K)} {limF limK : Option (List (K × K))} {n : Option ℕ}
    {toInt : String → Option ℤ} {interpolation : Option (List String)} {i : Interp} {g : Grid K}
    (h : setup sf sk limF limK n toInt interpolation = .ok (i, g)) {lf uf lk uk : K} (hf : limF.getD sf = [(lf, uf)])
    (hk : limK.getD sk = [(lk, uk)]) : mkGrid lf uf lk uk (nKernel n) = .ok g := by
  unfold setup at h
  rw [hf, hk] at h
  cases hp : parseInterp toInt interpolation with
  | error e => rw [hp] at h; cases h
  | ok i' =>
    cases hg : mkGrid lf uf lk uk (nKernel n) with
    | error e => simp only [hp, oneRange, bind, Except.bind, hg] at h; cases h
    | ok g' =>
      simp only [hp, oneRange, bind, Except.bind, hg] at h
      cases h
      rfl

/-- Without an argument the interpolation is linear. -/
theorem interpolation_default (toInt : String → Option ℤ) : parseInterp toInt none = .ok .linear := rfl

/-- The known interpolations: `linear`, `spline` (of order 3), each optionally with an order after a colon. -/
theorem interpolation_accepted (toInt : String → Option ℤ) (parts : List String) (i : Interp) :
    parseInterp toInt (some parts) = .ok i ↔
      (parts = ["linear"] ∧ i = .linear) ∨ (parts = ["spline"] ∧ i = .spline 3) ∨
      (∃ s k, toInt s = some k ∧ ((parts = ["linear", s] ∧ i = .linear) ∨ (parts = ["spline", s] ∧ i = .spline k))) := by
  have pk : ∀ a k, parseInterp.pick a k = .ok i ↔ (a = "linear" ∧ i = .linear) ∨ (a = "spline" ∧ i = .spline k) := by
    intro a k
    unfold parseInterp.pick
    by_cases h1 : a = "spline"
    · subst h1
      rw [if_pos rfl, Except.ok.injEq]
      constructor
      · rintro rfl; exact Or.inr ⟨rfl, rfl⟩
      · rintro (⟨h, -⟩ | ⟨-, h⟩)
        · exact absurd h (by decide)
        · exact h.symm
    · rw [if_neg h1]
      by_cases h2 : a = "linear"
      · subst h2
        rw [if_pos rfl, Except.ok.injEq]
        constructor
        · rintro rfl; exact Or.inl ⟨rfl, rfl⟩
        · rintro (⟨-, h⟩ | ⟨h, -⟩)
          · exact h.symm
          · exact absurd h h1
      · rw [if_neg h2]
        constructor
        · intro h; cases h
        · rintro (⟨h, -⟩ | ⟨h, -⟩)
          · exact absurd h h2
          · exact absurd h h1
  match parts with
  | [] => simp [parseInterp]
  | [a] =>
    rw [parseInterp, pk]
    simp
  | [a, b] =>
    rw [parseInterp]
    cases hb : toInt b with
    | none =>
      simp only [reduceCtorEq, List.cons.injEq, and_false, false_and, false_or, false_iff, not_exists, not_and, not_or, and_true,
        List.cons_ne_nil]
      intro s k hs
      constructor <;> (rintro ⟨-, rfl⟩; rw [hb] at hs; cases hs)
    | some k =>
      show parseInterp.pick a k = .ok i ↔ _
      rw [pk]
      simp only [List.cons.injEq, and_true, List.cons_ne_nil, and_false, false_and, false_or]
      constructor
      · rintro (⟨h1, h2⟩ | ⟨h1, h2⟩)
        · exact ⟨b, k, hb, Or.inl ⟨⟨h1, rfl⟩, h2⟩⟩
        · exact ⟨b, k, hb, Or.inr ⟨⟨h1, rfl⟩, h2⟩⟩
      · rintro ⟨s, k', hs, ⟨⟨h1, rfl⟩, h2⟩ | ⟨⟨h1, rfl⟩, h2⟩⟩
        · exact Or.inl ⟨h1, h2⟩
        · rw [hb] at hs
          cases hs
          exact Or.inr ⟨h1, h2⟩
  | a :: b :: c :: t => simp [parseInterp]

end Zfit.Conv
