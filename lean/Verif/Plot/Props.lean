import Verif.Plot.Model
import Mathlib.Tactic.Linarith
import Mathlib.Tactic.Ring
import Mathlib.Tactic.FieldSimp
import Mathlib.Algebra.BigOperators.Group.List.Basic
import Mathlib.Algebra.BigOperators.Ring.List

/-! # Theorems about plotting: C216-C219 -/

namespace Zfit.Plot

open Zfit

/-! ## Specification -/

/-- The curve shows `f` over `[lo, up]` with `n` points: the `i`-th of `n` points is at `lo + i (up - lo) / (n - 1)` (for
one point: at `lo`), with the value of `f` there. -/
structure Shows (c : Curve) (f : Rat → Rat) (lo up : Rat) (n : Nat) : Prop where
  count : c.xs.length = n ∧ c.ys.length = n
  points : ∀ i < n, ∃ x, c.xs[i]? = some x ∧ x * ((n : Rat) - 1) = lo * ((n : Rat) - 1) + (i : Rat) * (up - lo) ∧ c.ys[i]? = some (f x)
  first : n ≠ 0 → c.xs.head? = some lo
  last : 2 ≤ n → c.xs.getLast? = some up

/-! ## Lemmas -/

theorem linspace_length (lo up : Rat) (n : Nat) : (linspace lo up n).length = n := by
  unfold linspace
  split
  · simp [*]
  · simp

theorem linspace_get (lo up : Rat) (n i : Nat) (hi : i < n) :
    (linspace lo up n)[i]? = some (lo + (i : Rat) * ((up - lo) / ((n : Rat) - 1))) := by
  unfold linspace
  split
  · rename_i h
    subst h
    obtain rfl : i = 0 := by omega
    simp
  · simp [hi]

theorem shows_of (c : Curve) (f : Rat → Rat) (lo up : Rat) (n : Nat) (hx : c.xs = linspace lo up n)
    (hy : c.ys = (linspace lo up n).map f) : Shows c f lo up n := by
  refine ⟨⟨by rw [hx, linspace_length], by rw [hy, List.length_map, linspace_length]⟩, ?_, ?_, ?_⟩
  · intro i hi
    refine ⟨lo + (i : Rat) * ((up - lo) / ((n : Rat) - 1)), by rw [hx, linspace_get _ _ _ _ hi], ?_, ?_⟩
    · rcases Nat.lt_or_ge 1 n with h | h
      · have : (n : Rat) - 1 ≠ 0 := by
          have : (1 : Rat) < n := by exact_mod_cast h
          linarith
        field_simp
      · obtain rfl : n = 1 := by omega
        obtain rfl : i = 0 := by omega
        simp
    · rw [hy, List.getElem?_map, linspace_get _ _ _ _ hi]
      rfl
  · intro h
    rw [hx, List.head?_eq_getElem?, linspace_get _ _ _ _ (Nat.pos_of_ne_zero h)]
    simp
  · intro h
    rw [hx, List.getLast?_eq_getElem?, linspace_length, linspace_get _ _ _ _ (by omega)]
    have h1 : ((n - 1 : Nat) : Rat) = (n : Rat) - 1 := by
      rw [Nat.cast_sub (by omega)]; simp
    have h2 : (n : Rat) - 1 ≠ 0 := by
      have : (1 : Rat) < n := by exact_mod_cast h
      linarith
    rw [h1]
    congr 1
    field_simp
    ring

/-- How a curve comes about for a PDF of one observable. -/
theorem draw_one (m : Pdf) (o : String) (ho : m.obs = [o]) (a : Args) (r : Range) (hs : drawSpace m a.obs = .ok [(o, r)])
    (f : Rat → Rat) (hf : heights m (a.extended.getD m.isExtended) = .ok f) (hax : a.axOk = true) :
    draw m a = .ok (⟨linspace r.1 r.2 (a.num.getD 300), (linspace r.1 r.2 (a.num.getD 300)).map fun x => f x * a.scale.getD 1,
      labelled (a.full.getD true) m.label (a.plotkwargs.getD []), o, a.extended.getD m.isExtended⟩,
      a.plotkwargs.map fun _ => labelled (a.full.getD true) m.label (a.plotkwargs.getD [])) := by
  unfold draw
  simp only [hs, ho, List.length_singleton, if_true, hf, hax]

/-! ## C216: the curve is the density -/

/-- **C216.**  A PDF of one observable with limits is drawn over these limits, or over the limits given, with `num`
evenly spaced points (300 if not given) from the lower to the upper limit; the height is the scale (1 if not given) times
the density - with the yield, if asked for or, when nothing is said, if the PDF is extended. -/
theorem curve_shows_density (m : Pdf) (o : String) (ho : m.obs = [o]) (a : Args) (hax : a.axOk = true) (r : Range)
    (hr : a.obs = some (.space [(o, r)]) ∨ (a.obs = none ∨ a.obs = some (.names [o])) ∧ ∃ l, m.limits = some l ∧ l o = r)
    (ext : Bool) (he : ext = match a.extended with | some b => b | none => m.ext.isSome || m.yield.isSome) :
    (ext = false → ∃ c kw, draw m a = .ok (c, kw) ∧
      Shows c (fun x => m.dens x * a.scale.getD 1) r.1 r.2 (a.num.getD 300)) ∧
    (ext = true → ∀ e, m.ext = some e → ∃ c kw, draw m a = .ok (c, kw) ∧
      Shows c (fun x => e x * a.scale.getD 1) r.1 r.2 (a.num.getD 300)) ∧
    (ext = true → m.ext = none → draw m a = .error .notExtended) := by
  have hs : drawSpace m a.obs = .ok [(o, r)] := by
    rcases hr with h | ⟨h | h, l, hl, hlr⟩
    · rw [h]; rfl
    · rw [h]; simp [drawSpace, hl, ho, hlr]
    · rw [h]; simp [drawSpace, withObs, hl, ho, hlr]
  have he' : a.extended.getD m.isExtended = ext := by
    rw [he]
    cases a.extended <;> simp [Pdf.isExtended]
  refine ⟨?_, ?_, ?_⟩
  · intro h
    refine ⟨_, _, draw_one m o ho a r hs m.dens (by rw [he', h]; rfl) hax, shows_of _ _ _ _ _ rfl rfl⟩
  · intro h e hm
    refine ⟨_, _, draw_one m o ho a r hs e (by rw [he', h]; simp [heights, hm]) hax, shows_of _ _ _ _ _ rfl rfl⟩
  · intro h hm
    unfold draw
    simp [hs, ho, he', h, heights, hm]

/-- **C216, what is refused.**  Without limits, of the PDF or given, with more than one observable to draw, or with
something else than axes, there is an exception and nothing is drawn. -/
theorem curve_refused (m : Pdf) (a : Args) :
    (m.limits = none → (a.obs = none ∨ ∃ l, a.obs = some (.names l)) → ∃ e, draw m a = .error e) ∧
    (a.obs = none → m.obs.length ≠ 1 → draw m a = .error .valueError) ∧
    (∀ l, a.obs = some (.space l) → l.length ≠ 1 → draw m a = .error .valueError) ∧
    (a.axOk = false → ∃ e, draw m a = .error e) := by
  refine ⟨?_, ?_, ?_, ?_⟩
  · rintro hl (h | ⟨l, h⟩)
    · exact ⟨.valueError, by unfold draw; simp [h, drawSpace, hl]⟩
    · unfold draw drawSpace withObs
      simp only [h, hl]
      by_cases hk : (l.filter fun o => o ∈ m.obs).isEmpty
      · exact ⟨.obsIncompatible, by simp [hk]⟩
      · exact ⟨.valueError, by simp [hk]⟩
  · intro h hn
    unfold draw drawSpace
    simp only [h]
    cases hl : m.limits with
    | none => simp
    | some l =>
      match hm : m.obs, hn with
      | [], _ => simp
      | [_], hn => simp at hn
      | _ :: _ :: _, _ => simp
  · intro l h hn
    unfold draw drawSpace
    simp only [h]
    match l, hn with
    | [], _ => rfl
    | [_], hn => simp at hn
    | _ :: _ :: _, _ => rfl
  · intro h
    unfold draw
    split
    · exact ⟨_, rfl⟩
    · dsimp only
      split
      · exact ⟨_, rfl⟩
      · simp [h]
    · exact ⟨_, rfl⟩

/-- Not vacuous: an extended PDF with density `2x` in [0, 1] and yield 10. -/
def ramp : Pdf := basic "ramp" "x" (some (0, 1)) (fun x => 2 * x) (some 10)

example : (draw ramp { num := some 3 }).map (fun p => (p.1.xs, p.1.ys)) = .ok ([0, 1 / 2, 1], [0, 10, 20]) := by decide +kernel
example : (draw ramp { num := some 3, extended := some false, scale := some 5 }).map (fun p => (p.1.xs, p.1.ys)) =
    .ok ([0, 1 / 2, 1], [0, 5, 10]) := by decide +kernel
example : (draw ramp { num := some 2, obs := some (.names ["z"]) }).map (·.1) = .error .obsIncompatible := by decide +kernel

/-! ## C217: the height does not depend on the range drawn -/

/-- **C217, PDFs of one observable.**  At a place that is among the points of two drawings over different ranges (with
the same choice of scale and extension), both have the same height.  Missing from the full claim: PDFs of several
observables, for which it is false (`height_in_range_violated`). -/
theorem height_in_range_partial (m : Pdf) (o : String) (ho : m.obs = [o]) (a b : Args) (he : a.extended = b.extended)
    (hsc : a.scale = b.scale) (hoa : ∀ l, a.obs = some (.space l) → l.map (·.1) = [o])
    (hob : ∀ l, b.obs = some (.space l) → l.map (·.1) = [o])
    (c d : Curve) (k k' : Option (List (String × String))) (hc : draw m a = .ok (c, k)) (hd : draw m b = .ok (d, k'))
    (i j : Nat) (x y z : Rat) (hx : c.xs[i]? = some x) (hy : c.ys[i]? = some y) (hx' : d.xs[j]? = some x) (hz : d.ys[j]? = some z) :
    y = z := by
  have key : ∀ (a : Args) (c : Curve) (k : Option (List (String × String))), draw m a = .ok (c, k) →
      ∃ f, heights m (a.extended.getD m.isExtended) = .ok f ∧ c.ys = c.xs.map fun x => f x * a.scale.getD 1 := by
    intro a c k h
    unfold draw at h
    dsimp only at h
    split at h
    · exact absurd h (by simp)
    · simp only [ho, List.length_singleton, if_true] at h
      split at h
      · exact absurd h (by simp)
      · rename_i f hf
        split at h
        · simp only [Except.ok.injEq, Prod.mk.injEq] at h
          obtain ⟨rfl, _⟩ := h
          exact ⟨f, hf, rfl⟩
        · exact absurd h (by simp)
    · exact absurd h (by simp)
  obtain ⟨f, hf, hcy⟩ := key a c k hc
  obtain ⟨g, hg, hdy⟩ := key b d k' hd
  rw [he, hg] at hf
  simp only [Except.ok.injEq] at hf
  subst hf
  rw [hcy, List.getElem?_map, hx] at hy
  rw [hdy, List.getElem?_map, hx'] at hz
  simp only [Option.map_some, Option.some.injEq] at hy hz
  rw [← hy, ← hz, hsc]

/-- A PDF of two observables, uniform in [0, 10] × [0, 1], with 100 events. -/
def flat2 : Pdf :=
  ⟨"flat", ["x", "y"], some fun o => if o = "x" then (0, 10) else (0, 1), fun _ => 0, none, fun _ _ => 1,
    fun _ r => r.2 - r.1, some 100⟩

/-- **C217 fails for PDFs of several observables.**  They are projected on the observable drawn, and the projection is
normalised over the range drawn: drawn over [0, 5] instead of [0, 10], the same 100 events have twice the height. -/
theorem height_in_range_violated :
    ∃ (m : Pdf) (a b : Args), a.extended = b.extended ∧ a.scale = b.scale ∧
      (draw m a).map (fun p => (p.1.xs, p.1.ys)) = .ok ([0, 5, 10], [10, 10, 10]) ∧
      (draw m b).map (fun p => (p.1.xs, p.1.ys)) = .ok ([0, 5], [20, 20]) :=
  ⟨flat2, { num := some 3, obs := some (.names ["x"]) }, { num := some 2, obs := some (.space [("x", (0, 5))]) }, rfl, rfl,
    by decide +kernel, by decide +kernel⟩

/-- **C217, the observable drawn.**  A PDF of one observable is drawn also over a space of another observable, which is
then written on the axis. -/
theorem other_observable_violated :
    ∃ (m : Pdf) (a : Args), m.obs = ["x"] ∧ a.obs = some (.space [("y", (0, 1))]) ∧
      (draw m a).map (fun p => (p.1.xs, p.1.ys, p.1.xobs)) = .ok ([0, 1], [0, 20], "y") :=
  ⟨ramp, { num := some 2, obs := some (.space [("y", (0, 1))]) }, rfl, rfl, by decide +kernel⟩

example : (draw ramp { num := some 2, obs := some (.space [("x", (0, 1 / 2))]) }).map (fun p => (p.1.xs, p.1.ys)) =
    .ok ([0, 1 / 2], [0, 10]) := by decide +kernel

/-! ## C218: components add up to the sum -/

theorem drawParts_ok (parts : List (Pdf × Rat)) (o : String) (r : Range) (s : Rat) (a : Args) (hax : a.axOk = true)
    (hobs : ∀ p ∈ parts, p.1.obs = [o]) (hs : ∀ p ∈ parts, drawSpace p.1 a.obs = .ok [(o, r)])
    (hh : ∀ p ∈ parts, heights p.1 (a.extended.getD p.1.isExtended) = .ok p.1.dens) :
    ∃ cs kw, drawParts (partsOf parts) s a = .ok (cs, kw) ∧
      cs.map (·.ys) = parts.map fun p => (linspace r.1 r.2 (a.num.getD 300)).map fun x => p.1.dens x * (p.2 * s) := by
  induction parts generalizing a with
  | nil => exact ⟨[], a.plotkwargs, rfl, rfl⟩
  | cons p ps ih =>
    obtain ⟨c, kw, h1, hc⟩ : ∃ c kw, draw p.1 { a with scale := some (p.2 * s) } = .ok (c, kw) ∧
        c.ys = (linspace r.1 r.2 (a.num.getD 300)).map fun x => p.1.dens x * (p.2 * s) :=
      ⟨_, _, draw_one p.1 o (hobs p (by simp)) { a with scale := some (p.2 * s) } r (hs p (by simp)) p.1.dens
        (hh p (by simp)) hax, rfl⟩
    obtain ⟨cs, kw', h2, h3⟩ := ih { a with plotkwargs := kw } hax (fun q hq => hobs q (by simp [hq]))
      (fun q hq => hs q (by simp [hq])) (fun q hq => hh q (by simp [hq]))
    refine ⟨c :: cs, kw', ?_, ?_⟩
    · have hd : drawParts (partsOf (p :: ps)) s a =
          match (Plotter.make p.1 none none).plotpdf { a with scale := some (p.2 * s) } with
          | .error e => .error e
          | .ok (c, kw) =>
            match drawParts (partsOf ps) s { a with plotkwargs := kw } with
            | .error e => .error e
            | .ok (cs, kw') => .ok (c :: cs, kw') := rfl
      rw [hd]
      have hp : (Plotter.make p.1 none none).plotpdf { a with scale := some (p.2 * s) } =
          draw p.1 { a with scale := some (p.2 * s) } := rfl
      rw [hp, h1]
      dsimp only
      rw [h2]
    · simp only [List.map_cons, h3, hc]

/-- The heights of several curves, added point by point: the `i`-th is the sum of the `i`-th of each. -/
def total (cs : List Curve) (i : Nat) : Rat := (cs.map fun c => c.ys.getD i 0).sum

/-- **C218, densities.**  If the density is drawn - because `extended=False`, or because neither the sum nor any of its
parts is extended - the components drawn by `plot.comp.plotpdf` add up to the curve of the sum, at each point; for sums
by fractions and for sums of extended PDFs.  Missing from the full claim: extended sums drawn with their yield, for which
it is false (`components_add_up_violated`, `components_of_yield_violated`). -/
theorem components_add_up_partial (label o : String) (r : Range) (parts : List (Pdf × Rat)) (y : Option Rat) (a : Args)
    (hax : a.axOk = true) (hparts : ∀ p ∈ parts, p.1.obs = [o] ∧ ∃ l, p.1.limits = some l ∧ l o = r)
    (hobs : a.obs = none ∨ a.obs = some (.names [o]) ∨ ∃ r', a.obs = some (.space [(o, r')]))
    (hext : a.extended = some false ∨
      a.extended = none ∧ y = none ∧ ∀ p ∈ parts, p.1.ext = none ∧ p.1.yield = none) :
    ∃ c kw cs kw', draw (sumByFracs label o r parts y) a = .ok (c, kw) ∧ drawComponents (partsOf parts) a = .ok (cs, kw') ∧
      cs.length = parts.length ∧ ∀ i, total cs i = c.ys.getD i 0 := by
  obtain ⟨r', hr'⟩ : ∃ r', (∀ p ∈ parts, drawSpace p.1 a.obs = .ok [(o, r')]) ∧
      drawSpace (sumByFracs label o r parts y) a.obs = .ok [(o, r')] := by
    rcases hobs with h | h | ⟨r', h⟩
    · refine ⟨r, fun p hp => ?_, by rw [h]; rfl⟩
      obtain ⟨h1, l, h2, h3⟩ := hparts p hp
      rw [h]; simp [drawSpace, h1, h2, h3]
    · refine ⟨r, fun p hp => ?_, by rw [h]; simp [drawSpace, withObs, sumByFracs, basic]⟩
      obtain ⟨h1, l, h2, h3⟩ := hparts p hp
      rw [h]; simp [drawSpace, withObs, h1, h2, h3]
    · exact ⟨r', fun p hp => by rw [h]; rfl, by rw [h]; rfl⟩
  have hh : ∀ p ∈ parts, heights p.1 (a.extended.getD p.1.isExtended) = .ok p.1.dens := by
    intro p hp
    rcases hext with h | ⟨h, _, h'⟩
    · rw [h]; rfl
    · obtain ⟨h1, h2⟩ := h' p hp
      rw [h]; simp [heights, Pdf.isExtended, h1, h2]
  have hw : heights (sumByFracs label o r parts y) (a.extended.getD (sumByFracs label o r parts y).isExtended) =
      .ok (sumByFracs label o r parts y).dens := by
    rcases hext with h | ⟨h, h', _⟩
    · rw [h]; rfl
    · rw [h, h']; rfl
  have h1 := draw_one (sumByFracs label o r parts y) o rfl a r' hr'.2 _ hw hax
  obtain ⟨cs, kw', h2, h3⟩ := drawParts_ok parts o r' (a.scale.getD 1) a hax (fun p hp => (hparts p hp).1) hr'.1 hh
  refine ⟨_, _, cs, kw', h1, h2, by simpa using congrArg List.length h3, fun i => ?_⟩
  have ht : total cs i = ((cs.map (·.ys)).map fun l => l.getD i 0).sum := by
    simp [total, Function.comp_def]
  rw [ht, h3, List.map_map]
  by_cases hi : i < a.num.getD 300
  · have hg := linspace_get r'.1 r'.2 (a.num.getD 300) i hi
    simp only [Function.comp_def, List.getD_eq_getElem?_getD, List.getElem?_map, hg, Option.map_some, Option.getD_some,
      sumByFracs, basic]
    rw [← List.sum_map_mul_right]
    congr 1
    exact List.map_congr_left fun p _ => by ring
  · have hg : (linspace r'.1 r'.2 (a.num.getD 300))[i]? = none := by
      rw [List.getElem?_eq_none_iff, linspace_length]; omega
    simp only [Function.comp_def, List.getD_eq_getElem?_getD, List.getElem?_map, hg, Option.map_none, Option.getD_none]
    induction parts with
    | nil => rfl
    | cons _ _ _ => simp

/-- The same for the sum of extended PDFs, which has the yields over their sum as fractions. -/
theorem components_of_yields_partial (label o : String) (r : Range) (parts : List (Pdf × Rat)) (a : Args)
    (hax : a.axOk = true) (hparts : ∀ p ∈ parts, p.1.obs = [o] ∧ ∃ l, p.1.limits = some l ∧ l o = r)
    (hobs : a.obs = none ∨ a.obs = some (.names [o]) ∨ ∃ r', a.obs = some (.space [(o, r')]))
    (hext : a.extended = some false) :
    ∃ c kw cs kw', draw (sumByYields label o r parts) a = .ok (c, kw) ∧
      drawComponents (partsOf (yieldFracs parts)) a = .ok (cs, kw') ∧ cs.length = parts.length ∧ ∀ i, total cs i = c.ys.getD i 0 := by
  obtain ⟨c, kw, cs, kw', h1, h2, h3, h4⟩ := components_add_up_partial label o r (yieldFracs parts) (some (parts.map (·.2)).sum) a hax
    (fun p hp => by
      simp only [yieldFracs, List.mem_map] at hp
      obtain ⟨q, hq, rfl⟩ := hp
      exact hparts q hq) hobs (Or.inl hext)
  refine ⟨c, kw, cs, kw', ?_, h2, by rw [h3, yieldFracs, List.length_map], h4⟩
  rw [← h1]
  unfold draw
  simp only [hext, Option.getD_some]
  rfl

def partA : Pdf := basic "a" "x" (some (0, 1)) (fun _ => 1) none
def partB : Pdf := basic "b" "x" (some (0, 1)) (fun x => 2 * x) none

/-- Not vacuous: a sum of a flat and a rising density with the fractions 1/4 and 3/4. -/
example : (draw (sumByFracs "s" "x" (0, 1) [(partA, 1 / 4), (partB, 3 / 4)] none) { num := some 3 }).map (·.1.ys) =
    .ok [1 / 4, 1, 7 / 4] ∧
    (drawComponents (partsOf [(partA, 1 / 4), (partB, 3 / 4)]) { num := some 3 }).map (fun p => p.1.map (·.ys)) =
    .ok [[1 / 4, 1 / 4, 1 / 4], [0, 3 / 4, 3 / 2]] := by decide +kernel

/-- **C218 fails for a sum of extended PDFs.**  With yields 30 and 10 the curve of the sum is at 40; each component is
drawn with its yield and in addition with its fraction, 30 · 3/4 and 10 · 1/4, that is 25 in total. -/
theorem components_of_yield_violated :
    ∃ (parts : List (Pdf × Rat)) (a : Args), a.extended = none ∧
      (draw (sumByYields "s" "x" (0, 1) parts) a).map (·.1.ys) = .ok [40, 40] ∧
      (drawComponents (partsOf (yieldFracs parts)) a).map (fun p => p.1.map (·.ys)) = .ok [[45 / 2, 45 / 2], [5 / 2, 5 / 2]] :=
  ⟨[(basic "a" "x" (some (0, 1)) (fun _ => 1) (some 30), 30), (basic "b" "x" (some (0, 1)) (fun _ => 1) (some 10), 10)],
    { num := some 2 }, rfl, by decide +kernel, by decide +kernel⟩

/-- **C218 fails for an extended sum by fractions.**  The curve of a sum with 40 events is at 40, its components, which
are not extended, at 10/40 and 30/40 of 1. -/
theorem components_add_up_violated :
    ∃ (parts : List (Pdf × Rat)) (a : Args), a.extended = none ∧
      (draw (sumByFracs "s" "x" (0, 1) parts (some 40)) a).map (·.1.ys) = .ok [40, 40] ∧
      (drawComponents (partsOf parts) a).map (fun p => p.1.map (·.ys)) = .ok [[1 / 4, 1 / 4], [3 / 4, 3 / 4]] ∧
      (drawComponents (partsOf parts) { a with extended := some true }).map (fun p => p.1.map (·.ys)) = .error .notExtended :=
  ⟨[(partA, 1 / 4), (partA, 3 / 4)], { num := some 2 }, rfl, by decide +kernel, by decide +kernel, by decide +kernel⟩

/-! ## C219: options given are used -/

/-- **C219, without defaults.**  A plotter without defaults draws with exactly the options given.  Missing from the full
claim: plotters with defaults or with a function of their own, for which it is false (`options_given_violated`,
`own_function_violated`). -/
theorem options_given_partial (m : Pdf) (a : Args) : (Plotter.make m none none).plotpdf a = draw m a := rfl

/-- **C219, defaults.**  An option that is not given (`None`) is taken from the defaults, those not among the defaults
stay as given. -/
theorem defaults_fill_partial (m : Pdf) (n : Nat) (a : Args) :
    (Plotter.make m none (some [.num (some n)])).plotpdf { a with num := none } = draw m { a with num := some n } := rfl

/-- **C219 fails.**  An option given when drawing is replaced by the default of the plotter: asked for 2 points, three
are drawn. -/
theorem options_given_violated :
    ∃ (p : Plotter) (a : Args), a.num = some 2 ∧ (p.plotpdf a).map (·.1.xs) = .ok [0, 1 / 2, 1] :=
  ⟨Plotter.make ramp none (some [.num (some 3)]), { num := some 2 }, rfl, by decide +kernel⟩

/-- **C219, the function given.**  The function given to a plotter is never called: whatever it is, the result is the
same. -/
theorem own_function_violated :
    (∀ (m : Pdf) (f : DrawFn) (d : Option (List Setting)) (a : Args),
      (Plotter.make m (some f) d).plotpdf a = (Plotter.make m none d).plotpdf a) ∧
    ∃ (m : Pdf) (f : DrawFn) (a : Args), f m a = .error .userException ∧
      ((Plotter.make m (some f) none).plotpdf a).map (·.1.xs) = .ok [0, 1] :=
  ⟨fun _ _ _ _ => rfl, ramp, fun _ _ => .error .userException, { num := some 2 }, rfl, by decide +kernel⟩

theorem labelled_label (label : String) (kw : List (String × String)) (h : dictGet kw "label" = none) :
    dictGet (labelled true label kw) "label" = some label := by
  unfold labelled
  simp only [h, Option.isNone_none, Bool.and_true, if_true]
  induction kw with
  | nil => rfl
  | cons e kw ih =>
    obtain ⟨k, v⟩ := e
    by_cases hk : k = "label"
    · subst hk; simp [dictGet] at h
    · have : dictGet kw "label" = none := by
        simp only [dictGet, List.find?_cons, hk, decide_false] at h
        exact h
      simp only [dictSet, dictGet, List.find?_cons, hk, decide_false, if_false] at ih ⊢
      exact ih this

/-- **C219, labels.**  A curve has the label of its PDF, if no label is given, and the label given otherwise; the other
entries of `plotkwargs` are handed on. -/
theorem label_of_curve_partial (m : Pdf) (a : Args) (c : Curve) (k : Option (List (String × String))) (h : draw m a = .ok (c, k))
    (hf : a.full ≠ some false) :
    (dictGet (a.plotkwargs.getD []) "label" = none → dictGet c.kwargs "label" = some m.label) ∧
    (∀ l, dictGet (a.plotkwargs.getD []) "label" = some l → c.kwargs = a.plotkwargs.getD []) := by
  have hfull : a.full.getD true = true := by
    cases hh : a.full with
    | none => rfl
    | some b => cases b <;> simp_all
  have hk : c.kwargs = labelled true m.label (a.plotkwargs.getD []) := by
    unfold draw at h
    dsimp only at h
    split at h
    · exact absurd h (by simp)
    · split at h
      · exact absurd h (by simp)
      · split at h
        · simp only [Except.ok.injEq, Prod.mk.injEq] at h
          obtain ⟨rfl, _⟩ := h
          simp [hfull]
        · exact absurd h (by simp)
    · exact absurd h (by simp)
  refine ⟨fun hn => by rw [hk]; exact labelled_label _ _ hn, fun l hl => by rw [hk]; simp [labelled, hl]⟩

/-- **C219, the dictionary of the caller.**  The label is written into the dictionary the caller gave for `plotkwargs`;
drawing a second PDF with it, or the components of a sum, gives every curve the label of the first. -/
theorem plotkwargs_changed_violated :
    ∃ (parts : List (Pdf × Rat)) (a : Args), a.plotkwargs = some [("color", "red")] ∧
      (parts.map fun p => p.1.label) = ["a", "b"] ∧
      (drawComponents (partsOf parts) a).map (fun p => p.1.map fun c => dictGet c.kwargs "label") = .ok [some "a", some "a"] ∧
      (drawComponents (partsOf parts) a).map (·.2) = .ok (some [("color", "red"), ("label", "a")]) :=
  ⟨[(partA, 1 / 4), (partB, 3 / 4)], { num := some 2, plotkwargs := some [("color", "red")] }, rfl, rfl, by decide +kernel,
    by decide +kernel⟩

example : (drawComponents (partsOf [(partA, 1 / 4), (partB, 3 / 4)]) { num := some 2 }).map
    (fun p => p.1.map fun c => dictGet c.kwargs "label") = .ok [some "a", some "b"] := by decide +kernel

end Zfit.Plot
