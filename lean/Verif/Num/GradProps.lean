import Verif.Num.GradModel
import Verif.Num.McProps
import Mathlib.Analysis.SpecialFunctions.Log.Deriv

/-! Properties of the gradients of Monte Carlo integrals (C262, C263). -/

namespace Zfit.AutoGrad

open Zfit.Num Zfit.Auto Filter Topology

/-! ### Specification -/

/-- The number that was computed has the value `v` and hands on `dy` times `d`, the derivative of the value (chain rule). -/
structure Tracks (r : Rev) (v d : ℝ) : Prop where
  value : r.value = v
  back : ∀ dy, r.back dy = dy * d

/-- `R` records the integrand `F` (a function of the parameter and of the point) at the value `θ₀` of the parameter: at
every point the value and the derivative. -/
structure Records (R : List ℝ → Rev) (F : ℝ → List ℝ → ℝ) (F' : List ℝ → ℝ) (θ₀ : ℝ) : Prop where
  deriv : ∀ p, HasDerivAt (F · p) (F' p) θ₀
  tracks : ∀ p, Tracks (R p) (F θ₀ p) (F' p)

/-- The value of an integral that was computed. -/
def valueOf : Except Fail (ℝ × ℕ) → ℝ
  | .ok r => r.1
  | .error _ => 0

/-- The number of points of an integral that was computed. -/
def pointsOf : Except Fail (ℝ × ℕ) → ℕ
  | .ok r => r.2
  | .error _ => 0

/-! ### The rules -/

noncomputable instance : Inhabited Rev := ⟨Rev.const 0⟩

theorem tracks_const (c : ℝ) : Tracks (Rev.const c) c 0 := ⟨rfl, fun dy => by simp [Rev.const]⟩

theorem tracks_add {a b : Rev} {v v' d d' : ℝ} (ha : Tracks a v d) (hb : Tracks b v' d') : Tracks (a.add b) (v + v') (d + d') :=
  ⟨by simp [Rev.add, ha.value, hb.value], fun dy => by simp only [Rev.add, ha.back, hb.back]; ring⟩

theorem tracks_scale {a : Rev} {v d : ℝ} (c : ℝ) (ha : Tracks a v d) : Tracks (a.scale c) (c * v) (c * d) :=
  ⟨by simp [Rev.scale, ha.value], fun dy => by simp only [Rev.scale, ha.back]; ring⟩

theorem tracks_sum {α : Type} (l : List α) (r : α → Rev) (v d : α → ℝ) (h : ∀ a ∈ l, Tracks (r a) (v a) (d a)) :
    Tracks (Rev.sum (l.map r)) (l.map v).sum (l.map d).sum := by
  induction l with
  | nil => exact tracks_const 0
  | cons a l ih => exact tracks_add (h a (by simp)) (ih fun b hb => h b (by simp [hb]))

theorem tracks_batchMean (y : ℕ → Rev) (v d : ℕ → ℝ) (h : ∀ j, Tracks (y j) (v j) (d j)) (start n : ℕ) :
    Tracks (batchMeanR y start n) (batchMean v start n) (batchMean d start n) := by
  have := tracks_scale (1 / (n : ℝ)) (tracks_sum (List.range' start n) y v d fun j _ => h j)
  unfold batchMeanR batchMean
  rw [one_div_mul_eq_div, one_div_mul_eq_div] at this
  exact this

/-! ### The loop -/

theorem plain_body (m : Mc) (y : ℕ → Rev) (hy : ∀ j, (y j).value = m.y j) (l : LoopR) : (bodyR m y l).plain = m.body l.plain := by
  have hb : (batchMeanR y l.ntot m.nSamples).value = batchMean m.y l.ntot m.nSamples := by
    unfold batchMeanR batchMean Rev.scale
    have : ∀ l : List ℕ, (Rev.sum (l.map y)).value = (l.map m.y).sum := by
      intro l
      induction l with
      | nil => rfl
      | cons a l ih => simp only [List.map_cons, List.sum_cons, ← ih, ← hy]; rfl
    simp only [this]
    ring
  unfold bodyR Mc.body LoopR.plain
  simp only [Rev.add, Rev.scale, hb, Loop.mk.injEq, and_true]
  ring

theorem plain_loop (m : Mc) (y : ℕ → Rev) (hy : ∀ j, (y j).value = m.y j) (fuel : ℕ) :
    ∀ l, (loopR m y fuel l).map LoopR.plain = m.loop fuel l.plain := by
  induction fuel with
  | zero => intro l; rfl
  | succ fuel ih =>
    intro l
    rw [loopR, Mc.loop]
    split
    · rw [ih, plain_body m y hy]
    · rfl

/-- What holds after every turn for what the average hands on. -/
structure GoodR (m : Mc) (d : ℕ → ℝ) (l : LoopR) : Prop where
  total : l.ntot = l.i * m.nSamples
  back : (∀ dy, l.avg.back dy = dy * plainMean d l.ntot) ∨ l.i = 0 ∧ ∀ dy, l.avg.back dy = 0

theorem goodR_start (m : Mc) (d : ℕ → ℝ) : GoodR m d LoopR.start :=
  ⟨by simp [LoopR.start], Or.inr ⟨rfl, fun _ => rfl⟩⟩

theorem goodR_body (m : Mc) (y : ℕ → Rev) (v d : ℕ → ℝ) (h : ∀ j, Tracks (y j) (v j) (d j)) (hn : 0 < m.nSamples) (l : LoopR)
    (hg : GoodR m d l) :
    GoodR m d (bodyR m y l) ∧ ∀ dy, (bodyR m y l).avg.back dy = dy * plainMean d (bodyR m y l).ntot := by
  have key : ∀ dy, (bodyR m y l).avg.back dy = dy * plainMean d (bodyR m y l).ntot := by
    intro dy
    show l.avg.back (dy * ((l.i : ℝ) / (l.i + 1))) + (batchMeanR y l.ntot m.nSamples).back (dy * (1 / ((l.i : ℝ) + 1))) =
      dy * plainMean d (l.ntot + m.nSamples)
    rw [(tracks_batchMean y v d h l.ntot m.nSamples).back]
    have h2 := mean_step d m.nSamples l.i hn
    have e : l.ntot + m.nSamples = (l.i + 1) * m.nSamples := by rw [hg.total]; ring
    rw [e, ← h2, hg.total]
    rcases hg.back with hb | ⟨hi, hb⟩
    · rw [hb, hg.total]
      ring
    · rw [hb, hi]
      simp
  refine ⟨⟨?_, Or.inl key⟩, key⟩
  show l.ntot + m.nSamples = (l.i + 1) * m.nSamples
  rw [hg.total]
  ring

theorem loopR_good (m : Mc) (y : ℕ → Rev) (v d : ℕ → ℝ) (h : ∀ j, Tracks (y j) (v j) (d j)) (hn : 0 < m.nSamples) (fuel : ℕ) :
    ∀ l l', GoodR m d l → loopR m y fuel l = some l' → GoodR m d l' := by
  induction fuel with
  | zero => intro l l' _ h; cases h
  | succ fuel ih =>
    intro l l' hg hl
    rw [loopR] at hl
    split at hl
    · exact ih _ l' (goodR_body m y v d h hn l hg).1 hl
    · cases hl
      exact hg

/-! ### One piece -/

/-- The options with which at least one batch of at least one point is drawn. -/
structure Draws (o : Options) (limits : List Box) : Prop where
  draws : 0 < o.drawsPerDim
  budget : 0 < o.maxDraws
  tol : o.tol < 9999
  axes : ∀ b ∈ limits, b ≠ []

/-- The points of a piece without chunks. -/
noncomputable def pts (w : World) (b : Box) (j : ℕ) : List ℝ := stretchTo b (w.halton b.length j)

/-- The points of a piece in chunks. -/
noncomputable def ptsBack (w : World) (b : Box) (j : ℕ) : List ℝ := stretchBack b (w.halton b.length j)

theorem draws_pos {o : Options} {limits : List Box} (h : Draws o limits) {b : Box} (hb : b ∈ limits) :
    0 < o.drawsPerDim * b.length :=
  Nat.mul_pos h.draws (List.length_pos_of_ne_nil (h.axes b hb))

/-- Without chunks a piece is the volume times the mean over the points that were drawn. -/
theorem piece_mean (w : World) (o : Options) (vec : Bool) (F : List ℝ → ℝ) (b : Box) (h : Draws o [b])
    (hc : o.drawsPerDim * b.length ≤ w.chunksize) :
    ∃ N, mcPiece w o vec F b = .ok (plainMean (fun j => F (pts w b j)) N * b.area, N) := by
  have hn := draws_pos h (List.mem_singleton.2 rfl)
  unfold mcPiece
  simp only [if_neg (Nat.not_lt.2 hc)]
  cases vec with
  | true =>
    simp only [if_true]
    have := (good_body ⟨fun j => F (stretchTo b (w.halton b.length j)),
      fun i j => w.deviation ((List.range' i (j - i)).map fun j => F (stretchTo b (w.halton b.length j))), w.estimate b.length, o.tol,
      o.maxDraws, o.drawsPerDim * b.length⟩ hn _ (good_start _)).2.1
    exact ⟨_, by rw [this]; rfl⟩
  | false =>
    simp only [Bool.false_eq_true, if_false]
    obtain ⟨l, hl⟩ := mc_terminates ⟨fun j => F (stretchTo b (w.halton b.length j)),
      fun i j => w.deviation ((List.range' i (j - i)).map fun j => F (stretchTo b (w.halton b.length j))), w.estimate b.length, o.tol,
      o.maxDraws, o.drawsPerDim * b.length⟩ hn
    have hl' := hl (o.maxDraws + 1) (Nat.lt_succ_self _)
    rw [hl']
    obtain ⟨_, _, h3, _⟩ := mc_average _ hn h.tol h.budget _ l hl'
    exact ⟨l.ntot, by dsimp only; rw [h3]; rfl⟩

/-- Without chunks: the value and the number of points are those of the integral, and what is handed on is the chain rule. -/
theorem pieceR_tracks (w : World) (o : Options) (vec : Bool) (R : List ℝ → Rev) (F F' : List ℝ → ℝ)
    (hR : ∀ p, Tracks (R p) (F p) (F' p)) (b : Box) (h : Draws o [b]) (hc : o.drawsPerDim * b.length ≤ w.chunksize) :
    ∃ r N, mcPieceR w o vec R b = .ok (r, N) ∧ mcPiece w o vec F b = .ok (r.value, N) ∧
      Tracks r (plainMean (fun j => F (pts w b j)) N * b.area) (plainMean (fun j => F' (pts w b j)) N * b.area) := by
  have hn := draws_pos h (List.mem_singleton.2 rfl)
  have hv : (fun p => (R p).value) = F := funext fun p => (hR p).value
  obtain ⟨N, hN⟩ := piece_mean w o vec F b h hc
  let mc : Mc := ⟨fun j => F (stretchTo b (w.halton b.length j)),
      fun i j => w.deviation ((List.range' i (j - i)).map fun j => F (stretchTo b (w.halton b.length j))), w.estimate b.length, o.tol,
      o.maxDraws, o.drawsPerDim * b.length⟩
  have hmc : (⟨fun j => (R (stretchTo b (w.halton b.length j))).value,
      fun i j => w.deviation ((List.range' i (j - i)).map fun j => (R (stretchTo b (w.halton b.length j))).value), w.estimate b.length,
      o.tol, o.maxDraws, o.drawsPerDim * b.length⟩ : Mc) = mc := by
    simp only [mc, (hR _).value]
  have hy : ∀ j, (R (stretchTo b (w.halton b.length j))).value = mc.y j := fun j => (hR _).value
  have hT : ∀ j, Tracks (R (stretchTo b (w.halton b.length j))) (F (pts w b j)) (F' (pts w b j)) := fun j => hR _
  unfold mcPieceR
  simp only [if_neg (Nat.not_lt.2 hc), hmc]
  unfold mcPiece at hN ⊢
  simp only [if_neg (Nat.not_lt.2 hc)] at hN ⊢
  cases vec with
  | true =>
    simp only [if_true] at hN ⊢
    have hp := plain_body mc _ hy LoopR.start
    have h1 : (bodyR mc (fun j => R (stretchTo b (w.halton b.length j))) LoopR.start).avg.value = (mc.body Loop.start).avg :=
      congrArg Loop.avg hp
    have h2 : (bodyR mc (fun j => R (stretchTo b (w.halton b.length j))) LoopR.start).ntot = (mc.body Loop.start).ntot :=
      congrArg Loop.ntot hp
    obtain ⟨_, hb⟩ := goodR_body mc _ _ _ hT hn _ (goodR_start mc _)
    refine ⟨_, _, rfl, ?_, ?_⟩
    · rw [h2]
      simp only [Rev.scale, h1]
      rw [mul_comm b.area]
    · have hg := (good_body mc hn _ (good_start mc)).2.1
      have : Tracks (bodyR mc (fun j => R (stretchTo b (w.halton b.length j))) LoopR.start).avg
          (plainMean (fun j => F (pts w b j)) (bodyR mc (fun j => R (stretchTo b (w.halton b.length j))) LoopR.start).ntot) _ :=
        ⟨by rw [h1, hg, h2]; rfl, hb⟩
      have := tracks_scale b.area this
      rw [mul_comm b.area, mul_comm b.area] at this
      exact this
  | false =>
    simp only [Bool.false_eq_true, if_false] at hN ⊢
    have hp := plain_loop mc _ hy (o.maxDraws + 1) LoopR.start
    obtain ⟨l, hl⟩ := mc_terminates mc hn
    have hl' := hl (o.maxDraws + 1) (Nat.lt_succ_self _)
    have hs : LoopR.start.plain = Loop.start := rfl
    rw [hs, hl'] at hp
    obtain ⟨lr, hlr, hpl⟩ := Option.map_eq_some_iff.1 hp
    have h1 : lr.avg.value = l.avg := congrArg Loop.avg hpl
    have h2 : lr.ntot = l.ntot := congrArg Loop.ntot hpl
    have h4 : lr.i = l.i := congrArg Loop.i hpl
    obtain ⟨h5, _, h3, _⟩ := mc_average mc hn h.tol h.budget _ l hl'
    have hg := loopR_good mc _ _ _ hT hn _ _ _ (goodR_start mc _) hlr
    have hb := hg.back.resolve_right (by rintro ⟨h6, _⟩; omega)
    rw [hlr]
    refine ⟨_, _, rfl, ?_, ?_⟩
    · show (match mc.loop (o.maxDraws + 1) Loop.start with
        | none => Except.error Fail.hangs
        | some l => Except.ok (l.avg * b.area, l.ntot)) = _
      rw [hl', h2]
      simp only [Rev.scale, h1]
      rw [mul_comm b.area]
    · have : Tracks lr.avg (plainMean (fun j => F (pts w b j)) lr.ntot) (plainMean (fun j => F' (pts w b j)) lr.ntot) :=
        ⟨by rw [h1, h3, h2]; rfl, hb⟩
      have := tracks_scale b.area this
      rw [mul_comm b.area, mul_comm b.area] at this
      exact this

theorem mean_deriv (F : ℝ → ℕ → ℝ) (F' : ℕ → ℝ) (θ₀ : ℝ) (h : ∀ j, HasDerivAt (F · j) (F' j) θ₀) (N : ℕ) :
    HasDerivAt (fun θ => plainMean (F θ) N) (plainMean F' N) θ₀ := by
  unfold plainMean
  refine HasDerivAt.div_const ?_ _
  generalize List.range N = l
  induction l with
  | nil => simpa using hasDerivAt_const θ₀ (0 : ℝ)
  | cons a l ih =>
    simp only [List.map_cons, List.sum_cons]
    exact (h a).fun_add ih

/-! ### Several pieces -/

theorem each_ok {α β : Type} (f : α → Except Fail β) (g : α → β) (l : List α) (h : ∀ a ∈ l, f a = .ok (g a)) :
    each f l = .ok (l.map g) := by
  induction l with
  | nil => rfl
  | cons a l ih =>
    rw [each, h a (by simp)]
    dsimp only
    rw [ih fun b hb => h b (by simp [hb])]
    rfl

theorem sum_deriv {α : Type} (l : List α) (f : ℝ → α → ℝ) (f' : α → ℝ) (θ₀ : ℝ) (h : ∀ a ∈ l, HasDerivAt (f · a) (f' a) θ₀) :
    HasDerivAt (fun θ => (l.map (f θ)).sum) (l.map f').sum θ₀ := by
  induction l with
  | nil => simpa using hasDerivAt_const θ₀ (0 : ℝ)
  | cons a l ih =>
    simp only [List.map_cons, List.sum_cons]
    exact (h a (by simp)).fun_add (ih fun b hb => h b (by simp [hb]))

theorem draws_one {o : Options} {limits : List Box} (h : Draws o limits) {b : Box} (hb : b ∈ limits) : Draws o [b] :=
  ⟨h.draws, h.budget, h.tol, by intro c hc; rw [List.mem_singleton.1 hc]; exact h.axes b hb⟩

/-- C262: without chunks, and where the numbers of points do not depend on the parameter nearby, the gradient that is
computed for any function `f` of a Monte Carlo integral is the derivative of this function of the integral. -/
theorem gradient_is_derivative (w : World) (o : Options) (vec : Bool) (n : ℕ) (hn : n ≠ 1) (limits : List Box) (h : Draws o limits)
    (hc : ∀ b ∈ limits, o.drawsPerDim * b.length ≤ w.chunksize)
    (R : List ℝ → Rev) (F : ℝ → List ℝ → ℝ) (F' : List ℝ → ℝ) (θ₀ : ℝ) (hR : Records R F F' θ₀)
    (hN : ∀ b ∈ limits, ∀ᶠ θ in 𝓝 θ₀, pointsOf (mcPiece w o vec (F θ) b) = pointsOf (mcPiece w o vec (F θ₀) b)) :
    ∃ r N, mcIntegrateR w o vec R limits = .ok (r, N) ∧ autoIntegrate w o vec n (F θ₀) limits = .ok (r.value, N) ∧
      ∀ (f : ℝ → ℝ) (df : ℝ), HasDerivAt f df r.value →
        HasDerivAt (fun θ => f (valueOf (autoIntegrate w o vec n (F θ) limits))) ((r.apply f df).back 1) θ₀ := by
  have hp := fun b (hb : b ∈ limits) => pieceR_tracks w o vec R (F θ₀) F' hR.tracks b (draws_one h hb) (hc b hb)
  have hm : ∀ θ, ∀ b ∈ limits, ∃ N, mcPiece w o vec (F θ) b = .ok (plainMean (fun j => F θ (pts w b j)) N * b.area, N) :=
    fun θ b hb => piece_mean w o vec (F θ) b (draws_one h hb) (hc b hb)
  choose! r N h1 h2 h3 using hp
  have e1 : mcIntegrateR w o vec R limits = .ok (Rev.sum (limits.map r), (limits.map N).sum) := by
    unfold mcIntegrateR
    rw [each_ok _ (fun b => (r b, N b)) limits fun b hb => h1 b hb]
    simp only [Except.map, List.map_map]
    rfl
  have hT := tracks_sum limits r _ _ fun b hb => h3 b hb
  have e2 : autoIntegrate w o vec n (F θ₀) limits = .ok ((Rev.sum (limits.map r)).value, (limits.map N).sum) := by
    unfold autoIntegrate
    rw [if_neg hn, each_ok _ (fun b => ((r b).value, N b)) limits fun b hb => h2 b hb]
    simp only [Except.map, total, List.map_map]
    rw [hT.value]
    congr 3
    refine List.map_congr_left fun b hb => ?_
    exact (h3 b hb).value
  refine ⟨_, _, e1, e2, fun f df hf => ?_⟩
  have hback : ((Rev.sum (limits.map r)).apply f df).back 1 =
      df * (limits.map fun b => plainMean (fun j => F' (pts w b j)) (N b) * b.area).sum := by
    simp only [Rev.apply, hT.back]
    ring
  rw [hback]
  have hval : ∀ᶠ θ in 𝓝 θ₀, valueOf (autoIntegrate w o vec n (F θ) limits) =
      (limits.map fun b => plainMean (fun j => F θ (pts w b j)) (N b) * b.area).sum := by
    have : ∀ᶠ θ in 𝓝 θ₀, ∀ b ∈ limits.toFinset, pointsOf (mcPiece w o vec (F θ) b) = pointsOf (mcPiece w o vec (F θ₀) b) :=
      (Filter.eventually_all_finset _).2 fun b hb => hN b (List.mem_toFinset.1 hb)
    filter_upwards [this] with θ hθ
    unfold autoIntegrate
    have hpc : ∀ b ∈ limits, mcPiece w o vec (F θ) b = .ok (plainMean (fun j => F θ (pts w b j)) (N b) * b.area, N b) := by
      intro b hb
      obtain ⟨M, hM⟩ := hm θ b hb
      have h5 := hθ b (List.mem_toFinset.2 hb)
      rw [hM, h2 b hb] at h5
      simp only [pointsOf] at h5
      rw [hM, h5]
    rw [if_neg hn, each_ok _ _ limits hpc]
    simp only [Except.map, total, List.map_map, valueOf]
    rfl
  have hd : HasDerivAt (fun θ => (limits.map fun b => plainMean (fun j => F θ (pts w b j)) (N b) * b.area).sum)
      (limits.map fun b => plainMean (fun j => F' (pts w b j)) (N b) * b.area).sum θ₀ :=
    sum_deriv limits (fun θ b => plainMean (fun j => F θ (pts w b j)) (N b) * b.area) _ θ₀ fun b _ =>
      (mean_deriv (fun θ j => F θ (pts w b j)) _ θ₀ (fun j => hR.deriv _) (N b)).mul_const _
  have hd2 := hd.congr_of_eventuallyEq hval
  have hf' : HasDerivAt f df (valueOf (autoIntegrate w o vec n (F θ₀) limits)) := by rw [e2]; exact hf
  exact HasDerivAt.comp θ₀ hf' hd2

/-! ### Chunks -/

theorem nograd_tracks (y : ℕ → Rev) (v d : ℕ → ℝ) (h : ∀ j, Tracks (y j) (v j) (d j)) (batchSize numBatches : ℕ) :
    Tracks (nograd y batchSize numBatches) (chunked v batchSize numBatches) (chunked d batchSize numBatches) := by
  unfold nograd chunked
  induction numBatches with
  | zero => exact tracks_const 0
  | succ k ih =>
    rw [List.range_succ, List.foldl_append, List.foldl_append, List.foldl_append]
    simp only [List.foldl_cons, List.foldl_nil]
    have := tracks_add ih (tracks_scale (1 / ((k : ℝ) + 1)) (tracks_add (tracks_batchMean y v d h (k * batchSize) batchSize)
      (tracks_scale (-1) ih)))
    have e : ∀ m v' : ℝ, m + 1 / ((k : ℝ) + 1) * (v' + -1 * m) = m + 1 / ((k : ℝ) + 1) * (v' - m) := fun m v' => by ring
    rw [e, e] at this
    exact this

/-- The number of points of a piece in chunks. -/
def chunkPoints (w : World) (o : Options) (b : Box) : ℕ :=
  (chunks (o.drawsPerDim * b.length) w.chunksize).2 * (chunks (o.drawsPerDim * b.length) w.chunksize).1

theorem piece_chunked (w : World) (o : Options) (vec : Bool) (b : Box) (hw : 0 < w.chunksize)
    (hc : w.chunksize < o.drawsPerDim * b.length) (R : List ℝ → Rev) (F F' : List ℝ → ℝ) (hR : ∀ p, Tracks (R p) (F p) (F' p)) :
    mcPiece w o vec F b = .ok (plainMean (fun j => F (ptsBack w b j)) (chunkPoints w o b) * b.area, chunkPoints w o b) ∧
    ∃ r, mcPieceR w o vec R b = .ok (r, chunkPoints w o b) ∧
      r.value = plainMean (fun j => F (ptsBack w b j)) (chunkPoints w o b) * b.area ∧
      ∀ dy, r.back dy = plainMean (fun j => F' (ptsBack w b j)) (chunkPoints w o b) := by
  have hpos : 0 < (chunks (o.drawsPerDim * b.length) w.chunksize).1 ∧ 0 < (chunks (o.drawsPerDim * b.length) w.chunksize).2 := by
    obtain ⟨h1, _⟩ := mc_chunks (o.drawsPerDim * b.length) w.chunksize hw hc
    have : 0 < (chunks (o.drawsPerDim * b.length) w.chunksize).2 * (chunks (o.drawsPerDim * b.length) w.chunksize).1 := by
      refine Nat.lt_of_lt_of_le (Nat.lt_of_le_of_lt (Nat.zero_le _) hc) (h1.trans_eq (Nat.mul_comm _ _))
    exact ⟨Nat.pos_of_mul_pos_left this, Nat.pos_of_mul_pos_right this⟩
  have hT := nograd_tracks (fun j => R (stretchBack b (w.halton b.length j))) (fun j => F (ptsBack w b j))
    (fun j => F' (ptsBack w b j)) (fun j => hR _) (chunks (o.drawsPerDim * b.length) w.chunksize).1
    (chunks (o.drawsPerDim * b.length) w.chunksize).2
  rw [mc_chunked _ _ _ hpos.1 hpos.2, mc_chunked _ _ _ hpos.1 hpos.2] at hT
  refine ⟨?_, ?_⟩
  · unfold mcPiece
    simp only [if_pos hc]
    rw [mc_chunked _ _ _ hpos.1 hpos.2]
    rfl
  · unfold mcPieceR
    simp only [if_pos hc]
    refine ⟨_, rfl, ?_, fun dy => ?_⟩
    · simp only [Rev.scale, chunkedR, hT.value]
      rw [mul_comm]
      rfl
    · simp only [Rev.scale, chunkedR, hT.back, one_mul]
      rfl

/-- C263, in chunks: what is computed as the gradient of any function `f` of a Monte Carlo integral is the sum over the
pieces of the mean derivative of the integrand, whatever `f` is, and the derivative of that function of the integral is the
sum over the pieces of `df` times volume times this mean.  So the gradient is right if `df` times volume is one for every
piece.  Missing from the full claim: every other function of the integral and every other volume (see
`chunked_gradient_violated`). -/
theorem chunked_gradient_partial (w : World) (o : Options) (vec : Bool) (n : ℕ) (hn : n ≠ 1) (limits : List Box) (hw : 0 < w.chunksize)
    (hc : ∀ b ∈ limits, w.chunksize < o.drawsPerDim * b.length)
    (R : List ℝ → Rev) (F : ℝ → List ℝ → ℝ) (F' : List ℝ → ℝ) (θ₀ : ℝ) (hR : Records R F F' θ₀) :
    ∃ r N, mcIntegrateR w o vec R limits = .ok (r, N) ∧ autoIntegrate w o vec n (F θ₀) limits = .ok (r.value, N) ∧
      ∃ mean : Box → ℝ, ∀ (f : ℝ → ℝ) (df : ℝ), HasDerivAt f df r.value →
        HasDerivAt (fun θ => f (valueOf (autoIntegrate w o vec n (F θ) limits))) (limits.map fun b => df * b.area * mean b).sum θ₀ ∧
        (r.apply f df).back 1 = (limits.map mean).sum ∧
        ((∀ b ∈ limits, df * b.area = 1) →
          HasDerivAt (fun θ => f (valueOf (autoIntegrate w o vec n (F θ) limits))) ((r.apply f df).back 1) θ₀) := by
  have hp := fun b (hb : b ∈ limits) => (piece_chunked w o vec b hw (hc b hb) R (F θ₀) F' hR.tracks).2
  have hm : ∀ θ, ∀ b ∈ limits, mcPiece w o vec (F θ) b = .ok (plainMean (fun j => F θ (ptsBack w b j)) (chunkPoints w o b) * b.area,
      chunkPoints w o b) := fun θ b hb =>
    (piece_chunked w o vec b hw (hc b hb) (fun p => ⟨F θ p, fun dy => dy * 0⟩) (F θ) (fun _ => 0) (fun p => ⟨rfl, fun _ => rfl⟩)).1
  choose! r h1 h2 h3 using hp
  have e1 : mcIntegrateR w o vec R limits = .ok (Rev.sum (limits.map r), (limits.map (chunkPoints w o)).sum) := by
    unfold mcIntegrateR
    rw [each_ok _ (fun b => (r b, chunkPoints w o b)) limits fun b hb => h1 b hb]
    simp only [Except.map, List.map_map]
    rfl
  have hsv : ∀ l : List Box, (Rev.sum (l.map r)).value = (l.map fun b => (r b).value).sum := by
    intro l
    induction l with
    | nil => rfl
    | cons a l ih => simp only [List.map_cons, List.sum_cons, ← ih]; rfl
  have hsb : ∀ (l : List Box) (dy : ℝ), (Rev.sum (l.map r)).back dy = (l.map fun b => (r b).back dy).sum := by
    intro l dy
    induction l with
    | nil => rfl
    | cons a l ih => simp only [List.map_cons, List.sum_cons, ← ih]; rfl
  have e3 : ∀ θ, autoIntegrate w o vec n (F θ) limits =
      .ok ((limits.map fun b => plainMean (fun j => F θ (ptsBack w b j)) (chunkPoints w o b) * b.area).sum,
        (limits.map (chunkPoints w o)).sum) := by
    intro θ
    unfold autoIntegrate
    rw [if_neg hn, each_ok _ _ limits (hm θ)]
    simp only [Except.map, total, List.map_map]
    rfl
  have e2 : autoIntegrate w o vec n (F θ₀) limits = .ok ((Rev.sum (limits.map r)).value, (limits.map (chunkPoints w o)).sum) := by
    rw [e3, hsv]
    congr 3
    exact List.map_congr_left fun b hb => (h2 b hb).symm
  refine ⟨_, _, e1, e2, fun b => plainMean (fun j => F' (ptsBack w b j)) (chunkPoints w o b), fun f df hf => ?_⟩
  have hd : HasDerivAt (fun θ => (limits.map fun b => plainMean (fun j => F θ (ptsBack w b j)) (chunkPoints w o b) * b.area).sum)
      (limits.map fun b => plainMean (fun j => F' (ptsBack w b j)) (chunkPoints w o b) * b.area).sum θ₀ :=
    sum_deriv limits (fun θ b => plainMean (fun j => F θ (ptsBack w b j)) (chunkPoints w o b) * b.area) _ θ₀ fun b _ =>
      (mean_deriv (fun θ j => F θ (ptsBack w b j)) _ θ₀ (fun j => hR.deriv _) (chunkPoints w o b)).mul_const _
  have hf' : HasDerivAt f df ((limits.map fun b => plainMean (fun j => F θ₀ (ptsBack w b j)) (chunkPoints w o b) * b.area).sum) := by
    rw [e3, Except.ok.injEq, Prod.mk.injEq] at e2
    rw [e2.1]
    exact hf
  have hmain : HasDerivAt (fun θ => f (valueOf (autoIntegrate w o vec n (F θ) limits)))
      (limits.map fun b => df * b.area * plainMean (fun j => F' (ptsBack w b j)) (chunkPoints w o b)).sum θ₀ := by
    have := HasDerivAt.comp θ₀ hf' hd
    rw [← List.sum_map_mul_left] at this
    simp only [e3, valueOf]
    have e : (fun b : Box => df * b.area * plainMean (fun j => F' (ptsBack w b j)) (chunkPoints w o b)) =
        fun b => df * (plainMean (fun j => F' (ptsBack w b j)) (chunkPoints w o b) * b.area) := funext fun b => by ring
    rw [e]
    exact this
  have hback : ((Rev.sum (limits.map r)).apply f df).back 1 =
      (limits.map fun b => plainMean (fun j => F' (ptsBack w b j)) (chunkPoints w o b)).sum := by
    simp only [Rev.apply, hsb]
    congr 1
    exact List.map_congr_left fun b hb => h3 b hb _
  refine ⟨hmain, hback, fun h1 => ?_⟩
  rw [hback]
  convert hmain using 2
  refine List.map_congr_left fun b hb => ?_
  rw [h1 b hb, one_mul]

/-- C263 is violated: the integral of the constant `θ` over the square of side two is `4 θ`.  In chunks the gradient of the
integral is given as one instead of four, and the gradient of its logarithm at `θ = 2` as one instead of a half. -/
theorem chunked_gradient_violated (w : World) (hw : w.chunksize = 10) (o : Options) (ho : o.drawsPerDim = 100) (vec : Bool) :
    ∃ r N, mcIntegrateR w o vec (fun _ => ⟨2, fun dy => dy⟩) [[(0, 2), (0, 2)]] = .ok (r, N) ∧
      (∀ θ, valueOf (autoIntegrate w o vec 2 (fun _ => θ) [[(0, 2), (0, 2)]]) = 4 * θ) ∧
      (r.apply id 1).back 1 = 1 ∧ (r.apply Real.log (1 / 8)).back 1 = 1 ∧
      HasDerivAt (fun θ => valueOf (autoIntegrate w o vec 2 (fun _ => θ) [[(0, 2), (0, 2)]])) 4 2 ∧
      HasDerivAt (fun θ => Real.log (valueOf (autoIntegrate w o vec 2 (fun _ => θ) [[(0, 2), (0, 2)]]))) (1 / 2) 2 := by
  have hc : w.chunksize < o.drawsPerDim * ([(0, 2), (0, 2)] : Box).length := by rw [hw, ho]; decide
  have harea : Box.area [(0, 2), (0, 2)] = 4 := by norm_num [Box.area]
  have hN : chunkPoints w o [(0, 2), (0, 2)] = 200 := by unfold chunkPoints; rw [hw, ho]; rfl
  have hmean : ∀ c : ℝ, plainMean (fun _ => c) 200 = c := by
    intro c
    unfold plainMean
    rw [List.map_const', List.sum_replicate, List.length_range, nsmul_eq_mul]
    norm_num
  have hv : ∀ θ, valueOf (autoIntegrate w o vec 2 (fun _ => θ) [[(0, 2), (0, 2)]]) = 4 * θ := by
    intro θ
    have := (piece_chunked w o vec [(0, 2), (0, 2)] (by omega) hc (fun _ => ⟨θ, fun dy => dy * 0⟩) (fun _ => θ) (fun _ => 0)
      (fun p => ⟨rfl, fun _ => rfl⟩)).1
    unfold autoIntegrate
    rw [if_neg (by decide), each, this]
    simp [each, Except.map, total, valueOf, hN, hmean, harea, mul_comm]
  obtain ⟨_, r, h1, _, h3⟩ := piece_chunked w o vec [(0, 2), (0, 2)] (by omega) hc (fun _ => ⟨2, fun dy => dy⟩) (fun _ => 2)
    (fun _ => 1) (fun p => ⟨rfl, fun dy => by simp⟩)
  rw [hN, hmean] at h3
  refine ⟨Rev.sum [r], 200, ?_, hv, ?_, ?_, ?_, ?_⟩
  · unfold mcIntegrateR
    rw [each, h1]
    simp [each, Except.map, hN]
  · simp [Rev.apply, Rev.sum, Rev.add, Rev.const, h3]
  · simp [Rev.apply, Rev.sum, Rev.add, Rev.const, h3]
  · simp only [hv]
    simpa using (hasDerivAt_id (2 : ℝ)).const_mul 4
  · simp only [hv]
    have := ((hasDerivAt_id (2 : ℝ)).const_mul 4).log (by norm_num)
    rw [show (1 / 2 : ℝ) = 4 * 1 / (4 * id 2) by rw [id]; norm_num]
    exact this

/-! ### The hypotheses can be met -/

/-- The integral of `θ * x * y` over the unit square, and over two squares, in batches of 200 points. -/
example : ∃ (w : World) (o : Options) (R : List ℝ → Rev) (F : ℝ → List ℝ → ℝ) (F' : List ℝ → ℝ),
    Draws o [[(0, 1), (0, 1)], [(1, 2), (0, 1)]] ∧ (∀ b ∈ [[(0, 1), (0, 1)], [((1 : ℝ), (2 : ℝ)), (0, 1)]], o.drawsPerDim * b.length ≤ w.chunksize) ∧
    Records R F F' 3 ∧ (∀ p, F' p = p.prod) ∧
    ∀ b ∈ [[(0, 1), (0, 1)], [((1 : ℝ), (2 : ℝ)), (0, 1)]], ∀ᶠ θ in 𝓝 (3 : ℝ), pointsOf (mcPiece w o true (F θ) b) = pointsOf (mcPiece w o true (F 3) b) := by
  refine ⟨⟨fun _ _ => [1 / 2, 1 / 3], fun _ => 0, fun _ _ _ => 0, 1000, true⟩, ⟨fun _ _ => [], 100, 1000, 1 / 1000, 0⟩,
    fun p => ⟨3 * p.prod, fun dy => dy * p.prod⟩, fun θ p => θ * p.prod, fun p => p.prod, ⟨by norm_num, by norm_num, by norm_num, by simp⟩,
    by simp, ⟨fun p => ?_, fun p => ⟨rfl, fun _ => rfl⟩⟩, fun _ => rfl, ?_⟩
  · simpa using (hasDerivAt_id (3 : ℝ)).mul_const p.prod
  · intro b hb
    refine Eventually.of_forall fun θ => ?_
    have hb2 : b.length = 2 := by
      simp only [List.mem_cons, List.not_mem_nil, or_false] at hb
      rcases hb with rfl | rfl <;> rfl
    unfold mcPiece
    simp only [hb2]
    rfl

end Zfit.AutoGrad
