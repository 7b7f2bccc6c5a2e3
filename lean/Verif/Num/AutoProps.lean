import Verif.Num.AutoModel
import Verif.Num.McProps
import Verif.Num.SimpsonProps

/-! Properties of numeric integrals as a model evaluates them (C257-C260). -/

namespace Zfit.Auto

open Zfit.Num

/-! ## What the properties are about -/

/-- The values of the observables are within the limits. -/
def Within (b : Box) (x : List ℝ) : Prop := List.Forall₂ (fun p t => p.1 ≤ t ∧ t ≤ p.2) b x

/-- Each lower bound is not above the upper one. -/
def Ordered (b : Box) : Prop := ∀ p ∈ b, p.1 ≤ p.2

/-- The points of the sequence are in the unit cube. -/
def UnitCube (w : World) : Prop := ∀ n j, (w.halton n j).length = n ∧ ∀ t ∈ w.halton n j, 0 ≤ t ∧ t ≤ 1

/-- The volume of all pieces. -/
noncomputable def volume (limits : List Box) : ℝ := (limits.map Box.area).sum

/-- Options with which there is something to draw; `update_integration_options` refuses tolerances above one. -/
structure Usable (w : World) (o : Options) : Prop where
  draws : 0 < o.drawsPerDim
  budget : 0 < o.maxDraws
  tol : o.tol ≤ 1
  simpson : 1 ≤ o.drawsSimpson
  chunk : 0 < w.chunksize

/-! ## Lemmas -/

theorem within_to {b : Box} (hb : Ordered b) : ∀ {u : List ℝ}, u.length = b.length → (∀ t ∈ u, 0 ≤ t ∧ t ≤ 1) →
    Within b (stretchTo b u) := by
  induction b with
  | nil =>
    intro u hu _
    rw [List.length_nil, List.length_eq_zero_iff] at hu
    subst hu
    exact List.Forall₂.nil
  | cons p b ih =>
    intro u hu ht
    cases u with
    | nil => simp at hu
    | cons t u =>
      have hp : p.1 ≤ p.2 := hb p List.mem_cons_self
      obtain ⟨h0, h1⟩ := ht t List.mem_cons_self
      refine List.Forall₂.cons ⟨?_, ?_⟩ (ih (fun q hq => hb q (List.mem_cons_of_mem _ hq)) (by simpa using hu)
        fun s hs => ht s (List.mem_cons_of_mem _ hs))
      · nlinarith
      · nlinarith

theorem within_back {b : Box} (hb : Ordered b) : ∀ {u : List ℝ}, u.length = b.length → (∀ t ∈ u, 0 ≤ t ∧ t ≤ 1) →
    Within b (stretchBack b u) := by
  induction b with
  | nil =>
    intro u hu _
    rw [List.length_nil, List.length_eq_zero_iff] at hu
    subst hu
    exact List.Forall₂.nil
  | cons p b ih =>
    intro u hu ht
    cases u with
    | nil => simp at hu
    | cons t u =>
      have hp : p.1 ≤ p.2 := hb p List.mem_cons_self
      obtain ⟨h0, h1⟩ := ht t List.mem_cons_self
      refine List.Forall₂.cons ⟨?_, ?_⟩ (ih (fun q hq => hb q (List.mem_cons_of_mem _ hq)) (by simpa using hu)
        fun s hs => ht s (List.mem_cons_of_mem _ hs))
      · nlinarith
      · nlinarith

theorem area_nonneg {b : Box} (hb : Ordered b) : 0 ≤ b.area := by
  unfold Box.area
  apply List.prod_nonneg
  intro x hx
  obtain ⟨p, hp, rfl⟩ := List.mem_map.1 hx
  have := hb p hp
  linarith

theorem sum_bounds (lo hi : ℝ) : ∀ l : List ℝ, (∀ v ∈ l, lo ≤ v ∧ v ≤ hi) → lo * l.length ≤ l.sum ∧ l.sum ≤ hi * l.length := by
  intro l
  induction l with
  | nil => intro _; simp
  | cons v l ih =>
    intro h
    obtain ⟨h1, h2⟩ := h v List.mem_cons_self
    obtain ⟨h3, h4⟩ := ih fun w hw => h w (List.mem_cons_of_mem _ hw)
    rw [List.sum_cons, List.length_cons]
    push_cast
    constructor <;> linarith

theorem mean_bounds {y : ℕ → ℝ} {lo hi : ℝ} (h : ∀ j, lo ≤ y j ∧ y j ≤ hi) {n : ℕ} (hn : 0 < n) :
    lo ≤ plainMean y n ∧ plainMean y n ≤ hi := by
  unfold plainMean
  have hn' : (0 : ℝ) < n := by exact_mod_cast hn
  obtain ⟨h1, h2⟩ := sum_bounds lo hi ((List.range n).map y) (by
    intro v hv
    obtain ⟨j, _, rfl⟩ := List.mem_map.1 hv
    exact h j)
  rw [List.length_map, List.length_range] at h1 h2
  exact ⟨(le_div_iff₀ hn').2 h1, (div_le_iff₀ hn').2 h2⟩

theorem chunks_pos {n c : ℕ} (hc : 0 < c) (hn : c < n) : 0 < (chunks n c).2 ∧ (chunks n c).2 ≤ n := by
  unfold chunks
  dsimp only
  constructor
  · exact Nat.div_pos (by omega) hc
  · apply Nat.le_of_lt_succ
    rw [Nat.div_lt_iff_lt_mul hc]
    have h1 : n * 1 ≤ n * c := Nat.mul_le_mul_left n hc
    have e : n.succ * c = n * c + c := by rw [Nat.succ_mul]
    omega

/-- What one piece gives: a mean of values at points within the limits, times the volume; and how many points. -/
theorem mcPiece_mean (w : World) (hw : UnitCube w) (o : Options) (ho : Usable w o) (vect : Bool) (F : List ℝ → ℝ) (b : Box)
    (hb : Ordered b) (hl : 0 < b.length) :
    ∃ (y : ℕ → ℝ) (n : ℕ), 0 < n ∧ (∀ j, ∃ x, Within b x ∧ y j = F x) ∧
      mcPiece w o vect F b = .ok (plainMean y n * b.area, n) ∧ n ≤ o.maxDraws + 2 * (o.drawsPerDim * b.length) := by
  have hs : 0 < o.drawsPerDim * b.length := Nat.mul_pos ho.draws hl
  unfold mcPiece
  dsimp only
  by_cases hc : w.chunksize < o.drawsPerDim * b.length
  · rw [if_pos hc]
    obtain ⟨h1, h2, h3, h4⟩ := mc_chunks _ _ ho.chunk hc
    obtain ⟨h5, h6⟩ := chunks_pos ho.chunk hc
    refine ⟨fun j => F (stretchBack b (w.halton b.length j)), _, Nat.mul_pos h5 h4, ?_, by rw [mc_chunked _ _ _ h4 h5], ?_⟩
    · exact fun j => ⟨_, within_back hb (hw _ _).1 (hw _ _).2, rfl⟩
    · rw [Nat.mul_comm]
      omega
  · rw [if_neg hc]
    obtain ⟨mc, hmc⟩ : ∃ mc : Mc, mc = ⟨fun j => F (stretchTo b (w.halton b.length j)), fun i j =>
      w.deviation ((List.range' i (j - i)).map fun j => F (stretchTo b (w.halton b.length j))), w.estimate b.length, o.tol,
      o.maxDraws, o.drawsPerDim * b.length⟩ := ⟨_, rfl⟩
    rw [← hmc]
    have hy : mc.y = fun j => F (stretchTo b (w.halton b.length j)) := by rw [hmc]
    have hn : mc.nSamples = o.drawsPerDim * b.length := by rw [hmc]
    have hm : mc.maxDraws = o.maxDraws := by rw [hmc]
    have ht : mc.tol = o.tol := by rw [hmc]
    have hn' : 0 < mc.nSamples := by rw [hn]; exact hs
    have hyw : ∀ j, ∃ x, Within b x ∧ mc.y j = F x := by
      intro j
      rw [hy]
      exact ⟨_, within_to hb (hw _ _).1 (hw _ _).2, rfl⟩
    cases vect with
    | true =>
      rw [if_pos rfl]
      have := mc_vectorizable mc hn' 0
      unfold Mc.average at this
      rw [if_pos rfl, Option.some.injEq] at this
      have hnt : (mc.body Loop.start).ntot = mc.nSamples := by simp [Mc.body, Loop.start]
      refine ⟨mc.y, mc.nSamples, hn', hyw, by rw [this, hnt], by omega⟩
    | false =>
      rw [if_neg (by decide)]
      obtain ⟨l, hloop⟩ := mc_terminates mc hn'
      have hl' := hloop (o.maxDraws + 1) (by omega)
      rw [hl']
      obtain ⟨h1, h2, h3, h4, _⟩ := mc_average mc hn' (by rw [ht]; linarith [ho.tol]) (by rw [hm]; exact ho.budget) _ l hl'
      refine ⟨mc.y, l.ntot, ?_, hyw, by dsimp only; rw [h3], by omega⟩
      rw [h2]
      exact Nat.mul_pos h1 hn'

theorem simpsonPiece_bounds (n : ℕ) (hn : 1 ≤ n) (F : List ℝ → ℝ) (b : Box) (hb : Ordered b) (hl : b.length = 1) (lo hi : ℝ)
    (h : ∀ x, Within b x → lo ≤ F x ∧ F x ≤ hi) :
    ∃ v, simpsonPiece n F b = .ok (v, sanitize n) ∧ lo * b.area ≤ v ∧ v ≤ hi * b.area := by
  obtain ⟨p, rfl⟩ := List.length_eq_one_iff.1 hl
  have hp : p.1 ≤ p.2 := hb p (by simp)
  have ha : Box.area [p] = p.2 - p.1 := by simp [Box.area]
  unfold simpsonPiece
  rw [List.headD_cons, ha]
  have h1 : simpson (fun _ => 1) p.1 p.2 (sanitize n) = .ok (p.2 - p.1) := by
    have := simpson_cubic_exact 1 0 0 0 p.1 p.2 n hn
    rw [integral_cubic] at this
    rw [show (fun _ : ℝ => (1 : ℝ)) = cubic 1 0 0 0 by funext x; simp [cubic], this]
    congr 1
    ring
  obtain ⟨k, hk, hs⟩ := sanitize_odd n hn
  obtain ⟨u, hu⟩ : ∃ u, simpson (fun x => F [x]) p.1 p.2 (sanitize n) = .ok u := by
    rw [hs, simpson_value _ _ _ k hk]
    exact ⟨_, rfl⟩
  rw [hu]
  have hw : ∀ x, p.1 ≤ x → x ≤ p.2 → lo ≤ F [x] ∧ F [x] ≤ hi := fun x h0 h1 =>
    h [x] (List.Forall₂.cons ⟨h0, h1⟩ List.Forall₂.nil)
  refine ⟨u, rfl, ?_, ?_⟩
  · have h2 := (simpson_linear_nonneg (fun x => F [x]) (fun _ => 1) 1 (-lo) p.1 p.2 n hn).1 _ _ hu h1
    have h3 := (simpson_linear_nonneg (fun x => 1 * F [x] + -lo * 1) (fun _ => 1) 1 1 p.1 p.2 n hn).2 _ hp (by
      intro x h0 h1
      have := hw x h0 h1
      linarith) h2
    linarith
  · have h2 := (simpson_linear_nonneg (fun x => F [x]) (fun _ => 1) (-1) hi p.1 p.2 n hn).1 _ _ hu h1
    have h3 := (simpson_linear_nonneg (fun x => -1 * F [x] + hi * 1) (fun _ => 1) 1 1 p.1 p.2 n hn).2 _ hp (by
      intro x h0 h1
      have := hw x h0 h1
      linarith) h2
    linarith

/-- Pieces with bounds give a sum with bounds. -/
theorem each_bounds {f : Box → Except Fail (ℝ × ℕ)} {lo hi : ℝ} {N : ℕ} : ∀ {limits : List Box},
    (∀ b ∈ limits, ∃ v n, f b = .ok (v, n) ∧ lo * b.area ≤ v ∧ v ≤ hi * b.area ∧ n ≤ N) →
    ∃ v n, (each f limits).map total = .ok (v, n) ∧ lo * volume limits ≤ v ∧ v ≤ hi * volume limits ∧ n ≤ limits.length * N := by
  intro limits
  induction limits with
  | nil =>
    intro _
    exact ⟨0, 0, rfl, by simp [volume], by simp [volume], by simp⟩
  | cons b limits ih =>
    intro h
    obtain ⟨v, n, hv, h1, h2, h3⟩ := h b List.mem_cons_self
    obtain ⟨v', n', hv', h1', h2', h3'⟩ := ih fun c hc => h c (List.mem_cons_of_mem _ hc)
    unfold each
    rw [hv]
    dsimp only
    cases he : each f limits with
    | error e =>
      rw [he] at hv'
      cases hv'
    | ok rs =>
      rw [he] at hv'
      dsimp only [Except.map] at hv' ⊢
      rw [Except.ok.injEq] at hv'
      refine ⟨v + v', n + n', ?_, ?_, ?_, ?_⟩
      · rw [Except.ok.injEq]
        unfold total at hv' ⊢
        rw [Prod.mk.injEq] at hv' ⊢
        rw [List.map_cons, List.map_cons, List.sum_cons, List.sum_cons, hv'.1, hv'.2]
        exact ⟨rfl, rfl⟩
      · rw [volume, List.map_cons, List.sum_cons, mul_add]
        exact add_le_add h1 h1'
      · rw [volume, List.map_cons, List.sum_cons, mul_add]
        exact add_le_add h2 h2'
      · rw [List.length_cons, Nat.add_mul]
        omega

/-- The numbers of points of the pieces. -/
theorem each_count {f : Box → Except Fail (ℝ × ℕ)} {N : ℕ} : ∀ {limits : List Box} {r : ℝ × ℕ},
    (∀ b ∈ limits, ∀ r, f b = .ok r → r.2 ≤ N) → (each f limits).map total = .ok r → r.2 ≤ limits.length * N := by
  intro limits
  induction limits with
  | nil =>
    intro r _ hr
    cases hr
    simp [total]
  | cons b limits ih =>
    intro r h hr
    unfold each at hr
    cases hb : f b with
    | error e =>
      rw [hb] at hr
      cases hr
    | ok v =>
      rw [hb] at hr
      dsimp only at hr
      cases he : each f limits with
      | error e =>
        rw [he] at hr
        cases hr
      | ok rs =>
        rw [he] at hr
        cases hr
        have h1 := h b List.mem_cons_self v hb
        have h2 := ih (r := total rs) (fun c hc => h c (List.mem_cons_of_mem _ hc)) (by rw [he]; rfl)
        unfold total at h2 ⊢
        rw [List.length_cons, Nat.add_mul]
        dsimp only at h2 ⊢
        rw [List.map_cons, List.sum_cons]
        omega

theorem auto_count (w : World) (hw : UnitCube w) (o : Options) (ho : Usable w o) (vect : Bool) (nAxes : ℕ) (hn : 0 < nAxes)
    (F : List ℝ → ℝ) (limits : List Box) (hl : ∀ b ∈ limits, b.length = nAxes ∧ Ordered b) (r : ℝ × ℕ)
    (hr : autoIntegrate w o vect nAxes F limits = .ok r) :
    r.2 ≤ limits.length * (if nAxes = 1 then o.drawsSimpson + 2 else o.maxDraws + 2 * (o.drawsPerDim * nAxes)) := by
  unfold autoIntegrate at hr
  by_cases h1 : nAxes = 1
  · rw [if_pos h1] at hr ⊢
    refine each_count ?_ hr
    intro b _ r hr
    unfold simpsonPiece at hr
    split at hr
    · cases hr
    · cases hr
      exact ((points_sanitized o.drawsSimpson).1 ho.simpson).2.2.2
  · rw [if_neg h1] at hr ⊢
    refine each_count ?_ hr
    intro b hb r hr
    obtain ⟨hlen, hord⟩ := hl b hb
    obtain ⟨y, n, _, _, hv, hN⟩ := mcPiece_mean w hw o ho vect F b hord (by rw [hlen]; exact hn)
    rw [hv] at hr
    cases hr
    rw [← hlen]
    exact hN

/-- With the options as they are handed on. -/
theorem auto_bounds (w : World) (hw : UnitCube w) (o : Options) (ho : Usable w o) (vect : Bool) (nAxes : ℕ) (hn : 0 < nAxes)
    (F : List ℝ → ℝ) (limits : List Box) (hl : ∀ b ∈ limits, b.length = nAxes ∧ Ordered b) (lo hi : ℝ)
    (h : ∀ b ∈ limits, ∀ x, Within b x → lo ≤ F x ∧ F x ≤ hi) :
    ∃ v n, autoIntegrate w o vect nAxes F limits = .ok (v, n) ∧ lo * volume limits ≤ v ∧ v ≤ hi * volume limits ∧
      n ≤ limits.length * (if nAxes = 1 then o.drawsSimpson + 2 else o.maxDraws + 2 * (o.drawsPerDim * nAxes)) := by
  unfold autoIntegrate
  by_cases h1 : nAxes = 1
  · rw [if_pos h1, if_pos h1]
    apply each_bounds
    intro b hb
    obtain ⟨v, hv, h2, h3⟩ := simpsonPiece_bounds o.drawsSimpson ho.simpson F b (hl b hb).2 (by rw [(hl b hb).1, h1]) lo hi (h b hb)
    exact ⟨v, _, hv, h2, h3, ((points_sanitized o.drawsSimpson).1 ho.simpson).2.2.2⟩
  · rw [if_neg h1, if_neg h1]
    apply each_bounds
    intro b hb
    obtain ⟨hlen, hord⟩ := hl b hb
    obtain ⟨y, n, hn0, hy, hv, hN⟩ := mcPiece_mean w hw o ho vect F b hord (by rw [hlen]; exact hn)
    have hyb : ∀ j, lo ≤ y j ∧ y j ≤ hi := by
      intro j
      obtain ⟨x, hx, e⟩ := hy j
      rw [e]
      exact h b hb x hx
    obtain ⟨m1, m2⟩ := mean_bounds hyb hn0
    rw [hlen] at hN
    exact ⟨_, n, hv, mul_le_mul_of_nonneg_right m1 (area_nonneg hord), mul_le_mul_of_nonneg_right m2 (area_nonneg hord), hN⟩

/-! ## The properties -/

/-- C257: a numeric integral over one observable is exact for every polynomial of third degree or less: over limits with
any number of pieces, for any options with at least one point, with and without the option for bins; and the pieces need
not be ordered. -/
theorem numeric_exact (w : World) (o : Options) (bins : Bool) (hs : bins = true ∨ 1 ≤ o.drawsSimpson) (F : List ℝ → ℝ)
    (c0 c1 c2 c3 : ℝ) (hF : ∀ x : ℝ, F [x] = c0 + c1 * x + c2 * x ^ 2 + c3 * x ^ 3) (pieces : List (ℝ × ℝ)) :
    ∃ n, numericIntegrate w o bins 1 F (pieces.map fun p => [p]) =
      .ok ((pieces.map fun p => ∫ x in p.1..p.2, (c0 + c1 * x + c2 * x ^ 2 + c3 * x ^ 3)).sum, n) := by
  have key : ∀ k, 1 ≤ k → ∀ pieces : List (ℝ × ℝ), ∃ n, (each (simpsonPiece k F) (pieces.map fun p => [p])).map total =
      .ok ((pieces.map fun p => ∫ x in p.1..p.2, (c0 + c1 * x + c2 * x ^ 2 + c3 * x ^ 3)).sum, n) := by
    intro k hk pieces
    induction pieces with
    | nil => exact ⟨0, rfl⟩
    | cons p pieces ih =>
      obtain ⟨n, hn⟩ := ih
      have hp : simpsonPiece k F [p] = .ok (∫ x in p.1..p.2, (c0 + c1 * x + c2 * x ^ 2 + c3 * x ^ 3), sanitize k) := by
        unfold simpsonPiece
        rw [List.headD_cons, show (fun x => F [x]) = cubic c0 c1 c2 c3 by funext x; rw [hF]; simp [cubic],
          simpson_cubic_exact _ _ _ _ _ _ _ hk]
        simp [cubic]
      rw [List.map_cons, each, hp]
      dsimp only
      cases he : each (simpsonPiece k F) (pieces.map fun p => [p]) with
      | error e =>
        rw [he] at hn
        cases hn
      | ok rs =>
        rw [he] at hn
        dsimp only [Except.map] at hn ⊢
        rw [Except.ok.injEq] at hn
        unfold total at hn ⊢
        rw [Prod.mk.injEq] at hn
        refine ⟨sanitize k + n, ?_⟩
        rw [List.map_cons, List.map_cons, List.map_cons, List.sum_cons, List.sum_cons, List.sum_cons, hn.1, hn.2]
  unfold numericIntegrate autoIntegrate
  dsimp only
  rw [if_pos rfl]
  cases bins with
  | true =>
    rw [if_pos rfl]
    exact key _ (by dsimp only; omega) pieces
  | false =>
    rw [if_neg (by decide)]
    exact key _ (by simpa using hs) pieces

theorem numericIntegrate_bounds (w : World) (hw : UnitCube w) (o : Options) (ho : Usable w o) (bins : Bool) (nAxes : ℕ)
    (hn : 0 < nAxes) (F : List ℝ → ℝ) (limits : List Box) (hl : ∀ b ∈ limits, b.length = nAxes ∧ Ordered b) (lo hi : ℝ)
    (h : ∀ b ∈ limits, ∀ x, Within b x → lo ≤ F x ∧ F x ≤ hi) :
    ∃ v n, numericIntegrate w o bins nAxes F limits = .ok (v, n) ∧ lo * volume limits ≤ v ∧ v ≤ hi * volume limits ∧
      n ≤ limits.length * (if nAxes = 1 then max o.drawsSimpson 10 + 2 else o.maxDraws + 2 * (max o.drawsPerDim 10 * nAxes)) := by
  unfold numericIntegrate
  dsimp only
  cases bins with
  | true =>
    rw [if_pos rfl]
    obtain ⟨v, n, hv, h1, h2, h3⟩ := auto_bounds w hw
      { o with drawsPerDim := max (o.drawsPerDim / 30) 10, drawsSimpson := max (o.drawsSimpson / 30) 10 }
      ⟨by dsimp only; omega, ho.budget, ho.tol, by dsimp only; omega, ho.chunk⟩ true nAxes hn F limits hl lo hi h
    refine ⟨v, n, hv, h1, h2, h3.trans (Nat.mul_le_mul_left _ ?_)⟩
    dsimp only
    split
    · omega
    · have : max (o.drawsPerDim / 30) 10 * nAxes ≤ max o.drawsPerDim 10 * nAxes := Nat.mul_le_mul_right _ (by omega)
      omega
  | false =>
    rw [if_neg (by decide)]
    obtain ⟨v, n, hv, h1, h2, h3⟩ := auto_bounds w hw o ho false nAxes hn F limits hl lo hi h
    refine ⟨v, n, hv, h1, h2, h3.trans (Nat.mul_le_mul_left _ ?_)⟩
    split
    · omega
    · have : o.drawsPerDim * nAxes ≤ max o.drawsPerDim 10 * nAxes := Nat.mul_le_mul_right _ (by omega)
      omega

/-- C258: a numeric integral over any number of observables and pieces, with any usable options, with and without the option
for bins, lies between the bounds of the function times the volume. -/
theorem numeric_bounds (w : World) (hw : UnitCube w) (o : Options) (ho : Usable w o) (bins : Bool) (nAxes : ℕ)
    (hn : 0 < nAxes) (F : List ℝ → ℝ) (limits : List Box) (hl : ∀ b ∈ limits, b.length = nAxes ∧ Ordered b) (lo hi : ℝ)
    (h : ∀ b ∈ limits, ∀ x, Within b x → lo ≤ F x ∧ F x ≤ hi) :
    ∃ v n, numericIntegrate w o bins nAxes F limits = .ok (v, n) ∧ lo * volume limits ≤ v ∧ v ≤ hi * volume limits := by
  obtain ⟨v, n, hv, h1, h2, _⟩ := numericIntegrate_bounds w hw o ho bins nAxes hn F limits hl lo hi h
  exact ⟨v, n, hv, h1, h2⟩

/-- C258: in particular the integral of a constant is this constant times the volume. -/
theorem numeric_constant (w : World) (hw : UnitCube w) (o : Options) (ho : Usable w o) (bins : Bool) (nAxes : ℕ)
    (hn : 0 < nAxes) (c : ℝ) (limits : List Box) (hl : ∀ b ∈ limits, b.length = nAxes ∧ Ordered b) :
    ∃ n, numericIntegrate w o bins nAxes (fun _ => c) limits = .ok (c * volume limits, n) := by
  obtain ⟨v, n, hv, h1, h2⟩ := numeric_bounds w hw o ho bins nAxes hn (fun _ => c) limits hl c c fun _ _ _ _ => ⟨le_refl _, le_refl _⟩
  exact ⟨n, by rw [hv, le_antisymm h2 h1]⟩

/-- C258: the same for every event of a partial integral over limits with one piece. -/
theorem partial_bounds {E : Type} (w : World) (hw : UnitCube w) (hc : 0 < w.chunksize) (o : Options) (F : E → List ℝ → ℝ)
    (b : Box) (hb : Ordered b) (hl : 0 < b.length) (lo hi : ℝ) (h : ∀ e x, Within b x → lo ≤ F e x ∧ F e x ≤ hi)
    (events : List E) :
    ∃ l, partialNumeric w o F [b] events = .ok l ∧ l.length = events.length ∧
      ∀ r ∈ l, lo * b.area ≤ r.1 ∧ r.1 ≤ hi * b.area := by
  have hu : Usable w { mcDefaults w with drawsSimpson := 1 } :=
    ⟨by norm_num [mcDefaults], by norm_num [mcDefaults], by norm_num [mcDefaults], le_refl _, hc⟩
  have hp : ∀ e, ∃ v n, mcPiece w (mcDefaults w) w.graphMode (F e) b = .ok (v, n) ∧ lo * b.area ≤ v ∧ v ≤ hi * b.area := by
    intro e
    obtain ⟨y, n, hn0, hy, hv, _⟩ := mcPiece_mean w hw _ hu w.graphMode (F e) b hb hl
    have hyb : ∀ j, lo ≤ y j ∧ y j ≤ hi := by
      intro j
      obtain ⟨x, hx, e'⟩ := hy j
      rw [e']
      exact h e x hx
    obtain ⟨m1, m2⟩ := mean_bounds hyb hn0
    exact ⟨_, n, hv, mul_le_mul_of_nonneg_right m1 (area_nonneg hb), mul_le_mul_of_nonneg_right m2 (area_nonneg hb)⟩
  unfold partialNumeric
  dsimp only
  induction events with
  | nil => exact ⟨[], rfl, rfl, by simp⟩
  | cons e events ih =>
    obtain ⟨v, n, hv, h1, h2⟩ := hp e
    obtain ⟨l, hl', hlen, hall⟩ := ih
    refine ⟨(v, n) :: l, ?_, by simp [hlen], ?_⟩
    · rw [each, hv, hl']
    · intro r hr
      rcases List.mem_cons.1 hr with rfl | hr
      · exact ⟨h1, h2⟩
      · exact hall r hr

/-- C259: the number of points at which the function is evaluated is bounded by the options, whatever the function and the
estimated errors are: `draws_simpson` (at least ten) plus two for each piece with one observable, else `max_draws` plus two
batches. -/
theorem numeric_evaluations (w : World) (hw : UnitCube w) (o : Options) (ho : Usable w o) (bins : Bool) (nAxes : ℕ)
    (hn : 0 < nAxes) (F : List ℝ → ℝ) (limits : List Box) (hl : ∀ b ∈ limits, b.length = nAxes ∧ Ordered b)
    (r : ℝ × ℕ) (hr : numericIntegrate w o bins nAxes F limits = .ok r) :
    r.2 ≤ limits.length * (if nAxes = 1 then max o.drawsSimpson 10 + 2 else o.maxDraws + 2 * (max o.drawsPerDim 10 * nAxes)) := by
  unfold numericIntegrate at hr
  dsimp only at hr
  cases bins with
  | true =>
    rw [if_pos rfl] at hr
    refine (auto_count w hw
      { o with drawsPerDim := max (o.drawsPerDim / 30) 10, drawsSimpson := max (o.drawsSimpson / 30) 10 }
      ⟨by dsimp only; omega, ho.budget, ho.tol, by dsimp only; omega, ho.chunk⟩ true nAxes hn F limits hl r hr).trans (Nat.mul_le_mul_left _ ?_)
    dsimp only
    split
    · omega
    · have : max (o.drawsPerDim / 30) 10 * nAxes ≤ max o.drawsPerDim 10 * nAxes := Nat.mul_le_mul_right _ (by omega)
      omega
  | false =>
    rw [if_neg (by decide)] at hr
    refine (auto_count w hw o ho false nAxes hn F limits hl r hr).trans (Nat.mul_le_mul_left _ ?_)
    split
    · omega
    · have : o.drawsPerDim * nAxes ≤ max o.drawsPerDim 10 * nAxes := Nat.mul_le_mul_right _ (by omega)
      omega

/-- C260, the full claim: the options set on a model bound the points of all its numeric integrals: also for every event of
a partial integral the function is evaluated at no more than `max_draws` and two batches of points. -/
def OptionsBoundPartial : Prop :=
  ∀ (w : World) (o : Options) (F : Unit → List ℝ → ℝ) (b : Box) (l : List (ℝ × ℕ)) (events : List Unit),
    UnitCube w → Usable w o → Ordered b → 0 < b.length → partialNumeric w o F [b] events = .ok l →
    ∀ r ∈ l, r.2 ≤ o.maxDraws + 2 * (max o.drawsPerDim 10 * b.length)

/-- C260, what holds: the points of a partial integral are bounded, by the defaults of the integrator.
Missing from the full claim: the bounds are not those of the options (`partial_options_violated`). -/
theorem partial_evaluations_partial {E : Type} (w : World) (hw : UnitCube w) (hc : 0 < w.chunksize) (o : Options)
    (F : E → List ℝ → ℝ) (b : Box) (hb : Ordered b) (hl : 0 < b.length) (events : List E) (l : List (ℝ × ℕ))
    (h : partialNumeric w o F [b] events = .ok l) : ∀ r ∈ l, 0 < r.2 ∧ r.2 ≤ 800000 + 2 * (40000 * b.length) := by
  have hu : Usable w { mcDefaults w with drawsSimpson := 1 } :=
    ⟨by norm_num [mcDefaults], by norm_num [mcDefaults], by norm_num [mcDefaults], le_refl _, hc⟩
  unfold partialNumeric at h
  dsimp only at h
  induction events generalizing l with
  | nil =>
    cases h
    simp
  | cons e events ih =>
    obtain ⟨y, n, hn0, _, hv, hN⟩ := mcPiece_mean w hw _ hu w.graphMode (F e) b hb hl
    unfold each at h
    rw [show mcPiece w (mcDefaults w) w.graphMode (F e) b = .ok (plainMean y n * b.area, n) from hv] at h
    dsimp only at h
    split at h
    · cases h
    · rename_i rs hrs
      cases h
      intro r hr
      rcases List.mem_cons.1 hr with rfl | hr
      · exact ⟨hn0, hN⟩
      · exact ih rs hrs r hr

/-- Points in the middle of the cube, no deviation, room for a million points at once, graph mode. -/
noncomputable def middle : World := ⟨fun n _ => List.replicate n (1 / 2), fun _ => 0, fun _ _ _ => 0, 1000000, true⟩

theorem middle_cube : UnitCube middle := by
  intro n j
  refine ⟨List.length_replicate, ?_⟩
  intro t ht
  rw [List.eq_of_mem_replicate ht]
  norm_num

/-- Ten points in a batch, at most a hundred points. -/
noncomputable def modest : Options := ⟨fun n _ => List.replicate n 0, 10, 100, 1 / 10, 11⟩

theorem modest_usable : Usable middle modest := ⟨by norm_num [modest], by norm_num [modest], by norm_num [modest],
  by norm_num [modest], by norm_num [middle]⟩

/-- C260 fails: with `max_draws=100` and ten points in a batch a partial integral over one observable still evaluates the
function at 40000 points for each event. -/
theorem partial_options_violated : ¬ OptionsBoundPartial := by
  intro h
  have hv : partialNumeric middle modest (fun (_ : Unit) x => x.sum) [[(0, 1)]] [()] =
      .ok [mcPiece middle (mcDefaults middle) true (fun x => x.sum) [(0, 1)] |>.toOption.getD (0, 0)] ∧
      (mcPiece middle (mcDefaults middle) true (fun x => x.sum) [(0, 1)] |>.toOption.getD (0, 0)).2 = 40000 := by
    have e : mcPiece middle (mcDefaults middle) true (fun x => x.sum) [(0, 1)] =
        .ok ((mcPiece middle (mcDefaults middle) true (fun x => x.sum) [(0, 1)] |>.toOption.getD (0, 0)).1, 40000) := by
      unfold mcPiece
      dsimp only
      rw [if_neg (by norm_num [middle, mcDefaults]), if_pos rfl]
      simp [Mc.body, Loop.start, mcDefaults, Except.toOption]
    constructor
    · unfold partialNumeric
      dsimp only
      rw [each, show middle.graphMode = true from rfl, e]
      rfl
    · rw [e]
      rfl
  have := h middle modest _ [(0, 1)] _ [()] middle_cube modest_usable (by intro p hp; simp at hp; subst hp; norm_num) (by simp)
    hv.1 _ List.mem_cons_self
  rw [hv.2] at this
  norm_num [modest] at this

/-- C260 fails: the points are those of the Halton sequence whatever `mc_sampler` is set: no integral changes with it. -/
theorem sampler_violated {E : Type} (w : World) (o : Options) (sampler : ℕ → ℕ → List ℝ) (bins : Bool) (nAxes : ℕ)
    (F : List ℝ → ℝ) (G : E → List ℝ → ℝ) (limits : List Box) (events : List E) :
    numericIntegrate w { o with sampler := sampler } bins nAxes F limits = numericIntegrate w o bins nAxes F limits ∧
    partialNumeric w { o with sampler := sampler } G limits events = partialNumeric w o G limits events := by
  refine ⟨?_, rfl⟩
  cases bins <;> rfl

/-- The hypotheses are met: x + y over [0, 2] × [1, 3] lies between 1 and 5, so the integral is between 4 and 20. -/
example : ∃ v n, numericIntegrate middle modest false 2 (fun x => x.sum) [[(0, 2), (1, 3)]] = .ok (v, n) ∧ 4 ≤ v ∧ v ≤ 20 := by
  obtain ⟨v, n, h, h1, h2⟩ := numeric_bounds middle middle_cube modest modest_usable false 2 (by norm_num) (fun x => x.sum)
    [[(0, 2), (1, 3)]] (by
      intro b hb
      simp only [List.mem_cons, List.not_mem_nil, or_false] at hb
      subst hb
      refine ⟨rfl, ?_⟩
      intro p hp
      simp only [List.mem_cons, List.not_mem_nil, or_false] at hp
      rcases hp with rfl | rfl <;> norm_num) 1 5 (by
      intro b hb x hx
      simp only [List.mem_cons, List.not_mem_nil, or_false] at hb
      subst hb
      unfold Within at hx
      cases hx with
      | cons h1 h2 =>
        cases h2 with
        | cons h2 h3 =>
          cases h3
          simp only [List.sum_cons, List.sum_nil]
          dsimp only at h1 h2
          constructor <;> linarith [h1.1, h1.2, h2.1, h2.2])
  have hvol : volume [[(0, 2), (1, 3)]] = 4 := by norm_num [volume, Box.area]
  rw [hvol] at h1 h2
  exact ⟨v, n, h, by linarith, by linarith⟩

/-- The hypotheses are met: with eleven points the integral of x³ over [0, 1] and [2, 4] is 60 + 1/4. -/
example : ∃ n, numericIntegrate middle modest false 1 (fun x => (x.headD 0) ^ 3) [[(0, 1)], [(2, 4)]] = .ok (60 + 1 / 4, n) := by
  obtain ⟨n, h⟩ := numeric_exact middle modest false (Or.inr (by norm_num [modest])) (fun x => (x.headD 0) ^ 3) 0 0 0 1
    (by intro x; simp) [(0, 1), (2, 4)]
  refine ⟨n, ?_⟩
  rw [List.map_cons, List.map_cons, List.map_nil] at h
  rw [h]
  simp
  norm_num

end Zfit.Auto
