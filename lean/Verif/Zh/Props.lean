import Verif.Zh.Model
import Mathlib.Algebra.BigOperators.Group.Finset.Basic
import Mathlib.Algebra.Ring.Rat
import Mathlib.Data.List.GetD
import Mathlib.Tactic.Ring

/-!
# Properties C288-C291: helpers of `zfit.z` for functions of users (see /verif/properties.jsonl)

Nothing of a separate specification is needed: the statements are about lists of numbers and plain functions.
`none` is a number that is not finite (NaN or infinite).
-/

namespace Zfit.Zh

open Zfit

variable {K : Type}

/-! ### C288 `safe_where` -/

/-- C288, the value: `func` of the value where the condition holds and `safe_func` of it elsewhere; the replacement
values do not show up. -/
theorem safe_where_value (cond : List Bool) (func safeFunc safer : Fn K) (values : List (Fl K))
    (h : cond.length = values.length) :
    ∃ out, safeWhere cond func safeFunc safer values = .ok out ∧ out.length = values.length ∧
      ∀ (i : ℕ) (c : Bool) (v : Fl K), cond[i]? = some c → values[i]? = some v →
        out[i]? = some (if c then func.val v else safeFunc.val v) := by
  refine ⟨_, by simp only [safeWhere, h, if_true]; rfl, by simp [h], ?_⟩
  intro i c v hc hv
  simp only [List.getElem?_zipWith, hc, hv]
  cases c <;> simp [safeWhere1, where3]

theorem Fl.zero_mul' [MulZeroClass K] (x : K) : Fl.mul (some 0) (some x) = some 0 := by simp [Fl.mul]

theorem Fl.add_zero' [AddZeroClass K] (x : Fl K) : x.add (some 0) = x := by cases x <;> simp [Fl.add]

theorem Fl.zero_add' [AddZeroClass K] (x : Fl K) : Fl.add (some 0) x = x := by cases x <;> simp [Fl.add]

/-- C288, the gradient: with the default replacement (ones) and `safe_func` with a finite derivative at the values, the
gradient is that of the branch taken, whatever `func` and its derivative do where the condition does not hold: nothing of
it is NaN unless the derivative of the branch taken or the upstream gradient is. -/
theorem safe_where_grad [Field K] (cond : List Bool) (f f' s s' : Fl K → Fl K) (values upstream : List (Fl K))
    (hc : cond.length = values.length) (hu : upstream.length = values.length)
    (hs : ∀ v ∈ values, ∃ d, s' v = some d) :
    ∃ out, safeWhereGrad cond (.smooth f f') (.smooth s s') .ones values upstream = .ok out ∧ out.length = values.length ∧
      ∀ (i : ℕ) (c : Bool) (v g : Fl K), cond[i]? = some c → values[i]? = some v → upstream[i]? = some g →
        out[i]? = some (g.mul (if c then f' v else s' v)) := by
  refine ⟨_, by simp only [safeWhereGrad, hc, hu, and_self, if_true]; rfl, by simp [hc, hu], ?_⟩
  intro i c v g h1 h2 h3
  have hz : (cond.zip upstream)[i]? = some (c, g) := by
    simp [List.zip, List.getElem?_zipWith, h1, h3]
  simp only [List.getElem?_zipWith, hz, h2]
  obtain ⟨ds, hds⟩ := hs v (List.mem_of_getElem? h2)
  cases c with
  | false =>
    simp [safeWhereGrad1, where3, Fn.smooth, Fn.ones, Fl.zero_add']
  | true =>
    simp [safeWhereGrad1, where3, Fn.smooth, Fn.ones, hds, Fl.zero_mul', Fl.add_zero']

/-- C288, any replacement: a replacement value where the derivative of `func` is finite, made by a function with finite
derivative, works as well. -/
theorem safe_where_grad_custom [Field K] (c : Bool) (f f' s s' r r' : Fl K → Fl K) (v g : Fl K)
    (hf : c = false → ∃ d, f' (r v) = some d) (hs : ∃ d, s' v = some d) (hr : ∃ d, r' v = some d) :
    safeWhereGrad1 c (.smooth f f') (.smooth s s') (.smooth r r') v g = g.mul (if c then f' v else s' v) := by
  obtain ⟨ds, hds⟩ := hs
  obtain ⟨dr, hdr⟩ := hr
  cases c with
  | false =>
    obtain ⟨df, hdf⟩ := hf rfl
    simp [safeWhereGrad1, where3, Fn.smooth, hdf, hdr, Fl.zero_mul', Fl.zero_add']
  | true =>
    simp [safeWhereGrad1, where3, Fn.smooth, hds, hdr, Fl.zero_mul', Fl.add_zero']

/-- Why `safe_where` exists: the gradient of a plain `tf.where` is NaN where the derivative of the branch *not* taken is. -/
theorem plain_where_grad_nan [Field K] (f f' s s' : Fl K → Fl K) (v g : Fl K) (h : f' v = none) :
    plainWhereGrad1 false (.smooth f f') (.smooth s s') v g = none := by
  simp [plainWhereGrad1, where3, Fn.smooth, h, Fl.mul, Fl.add]

/-- The condition on `safe_func` is needed: it is evaluated at *all* values, and where its derivative is not finite the
gradient is NaN even though the condition takes `func` there. -/
theorem safe_where_grad_needs_safe [Field K] (f f' s s' : Fl K → Fl K) (v g : Fl K) (h : s' v = none) :
    safeWhereGrad1 true (.smooth f f') (.smooth s s') .ones v g = none := by
  simp only [safeWhereGrad1, where3, Fn.smooth, Fn.ones, h, if_true]
  cases g <;> cases f' v <;> simp [Fl.mul, Fl.add]

/-- A case that meets the hypotheses: `1/x` for nonzero `x` (derivative not finite at zero), else `x`. The gradient at
zero is that of `x`. -/
def wInv : Fl ℚ → Fl ℚ := fun v => v.bind fun x => if x = 0 then none else some (1 / x)
def wInv' : Fl ℚ → Fl ℚ := fun v => v.bind fun x => if x = 0 then none else some (-1 / x ^ 2)

example : safeWhereGrad [true, false] (.smooth wInv wInv') (.smooth id fun _ => some 1) .ones [some 2, some 0]
      [some 4, some 3] = .ok [some (-1), some 3] ∧
    safeWhere [true, false] (.smooth wInv wInv') (.smooth id fun _ => some 1) .ones [some 2, some 0] =
      .ok [some (1 / 2), some 0] ∧
    plainWhereGrad1 false (.smooth wInv wInv') (.smooth id fun _ => some 1) (some 0) (some 3) = none ∧
    (∃ d, wInv' (some 1) = some d) := ⟨by decide +kernel, by decide +kernel, by decide +kernel, ⟨-1, by decide +kernel⟩⟩

/-! ### C289 `run_no_nan` -/

theorem mem_finiteIdx {vals : List (Fl K)} {i : ℕ} : i ∈ finiteIdx vals ↔ ∃ a, vals[i]? = some (some a) := by
  unfold finiteIdx
  simp only [List.mem_filter, List.mem_range]
  constructor
  · rintro ⟨h1, h2⟩
    rw [List.getElem?_eq_getElem h1] at h2 ⊢
    simp only [Option.map_some, Option.getD_some, Option.isSome_iff_exists] at h2
    obtain ⟨a, ha⟩ := h2
    exact ⟨a, by rw [ha]⟩
  · rintro ⟨a, ha⟩
    obtain ⟨h1, h2⟩ := List.getElem?_eq_some_iff.1 ha
    exact ⟨h1, by simp [ha]⟩

theorem nodup_finiteIdx (vals : List (Fl K)) : (finiteIdx vals).Nodup := List.nodup_range.filter _

/-- What `scatter_nd` gives for different positions: the updates at their positions, zero elsewhere. -/
theorem scatter_ok [AddZeroClass K] (idx : List ℕ) (upd : List (Fl K)) (n : ℕ) (hl : idx.length = upd.length)
    (hn : idx.Nodup) (hb : ∀ i ∈ idx, i < n) :
    ∃ out, scatter idx upd n = .ok out ∧ out.length = n ∧
      (∀ (k i : ℕ) (u : Fl K), idx[k]? = some i → upd[k]? = some u → out[i]? = some u) ∧
      (∀ i, i < n → i ∉ idx → out[i]? = some (some 0)) := by
  have key : ∀ (idx : List ℕ) (upd : List (Fl K)) (start : List (Fl K)), idx.length = upd.length → idx.Nodup →
      start.length = n → (∀ i ∈ idx, start[i]? = some (some 0)) →
      ∃ out, ((idx.zip upd).foldlM (m := Except Err) (init := start) fun out iu => match out[iu.1]? with
          | some v => .ok (out.set iu.1 (v.add iu.2))
          | none => .error .invalidArgument) = .ok out ∧ out.length = n ∧
        (∀ (k i : ℕ) (u : Fl K), idx[k]? = some i → upd[k]? = some u → out[i]? = some u) ∧
        (∀ i, i ∉ idx → out[i]? = start[i]?) := by
    intro idx
    induction idx with
    | nil =>
      intro upd start h _ hs _
      exact ⟨start, by simp, hs, by simp, by simp⟩
    | cons i idx ih =>
      intro upd start h hnd hs h0
      match upd, h with
      | u :: upd, h =>
        have hi := h0 i (by simp)
        have hilt : i < start.length := (List.getElem?_eq_some_iff.1 hi).1
        have hnd' := List.nodup_cons.1 hnd
        obtain ⟨out, ho, hlen, hu, hr⟩ := ih upd (start.set i u) (by simpa using h) hnd'.2 (by simp [hs])
          (fun j hj => by
            have hne : i ≠ j := fun he => hnd'.1 (he ▸ hj)
            rw [List.getElem?_set_ne hne]
            exact h0 j (by simp [hj]))
        refine ⟨out, ?_, hlen, ?_, ?_⟩
        · simp only [List.zip_cons_cons, List.foldlM_cons, hi, except_bind_ok, Fl.zero_add']
          exact ho
        · intro k j w hk hw
          cases k with
          | zero =>
            simp only [List.getElem?_cons_zero, Option.some.injEq] at hk hw
            subst hk; subst hw
            rw [hr i hnd'.1, List.getElem?_set_self hilt]
          | succ k =>
            simp only [List.getElem?_cons_succ] at hk hw
            exact hu k j w hk hw
        · intro j hj
          simp only [List.mem_cons, not_or] at hj
          rw [hr j hj.2, List.getElem?_set_ne (Ne.symm hj.1)]
  obtain ⟨out, h1, h2, h3, h4⟩ := key idx upd (List.replicate n (some 0)) hl hn (by simp)
    (fun i hi => by simp [hb i hi])
  refine ⟨out, by rw [scatter, if_pos hl]; exact h1, h2, h3, ?_⟩
  intro i hi hni
  rw [h4 i hni]
  simp [hi]

/-- C289, any function of the events that returns one value for each: the events with a finite value in the first call
get the value of the second call, which is made with exactly these events in their order; all others get zero. -/
theorem run_no_nan_spec [AddZeroClass K] {X : Type} (func : List X → List (Fl K)) (x : List X)
    (hlen : ∀ y, (func y).length = y.length) :
    ∃ (out : List (Fl K)) (idx : List ℕ) (kept : List X), runNoNan func x = .ok out ∧ out.length = x.length ∧
      idx.Pairwise (· < ·) ∧ (∀ i, i ∈ idx ↔ ∃ a, (func x)[i]? = some (some a)) ∧
      kept.map some = idx.map (x[·]?) ∧
      (∀ (k i : ℕ), idx[k]? = some i → out[i]? = (func kept)[k]?) ∧
      (∀ i, i < x.length → i ∉ idx → out[i]? = some (some 0)) := by
  have hlt : ∀ i ∈ finiteIdx (func x), i < x.length := by
    intro i hi
    obtain ⟨a, ha⟩ := mem_finiteIdx.1 hi
    have := (List.getElem?_eq_some_iff.1 ha).1
    rwa [hlen] at this
  have hg : ∃ kept, gather x (finiteIdx (func x)) = .ok kept ∧ kept.map some = (finiteIdx (func x)).map (x[·]?) := by
    generalize finiteIdx (func x) = idx at hlt
    induction idx with
    | nil => exact ⟨[], rfl, rfl⟩
    | cons i idx ih =>
      obtain ⟨kept, h1, h2⟩ := ih fun j hj => hlt j (by simp [hj])
      have hi := hlt i (by simp)
      refine ⟨x[i] :: kept, ?_, by simp [h2, hi]⟩
      unfold gather at h1 ⊢
      simp only [List.mapM_cons, List.getElem?_eq_getElem hi, except_bind_ok, h1, except_pure]
  obtain ⟨kept, hk1, hk2⟩ := hg
  have hkl : (finiteIdx (func x)).length = (func kept).length := by
    have := congrArg List.length hk2
    simpa [hlen] using this.symm
  obtain ⟨out, ho1, ho2, ho3, ho4⟩ := scatter_ok (finiteIdx (func x)) (func kept) x.length hkl (nodup_finiteIdx _) hlt
  refine ⟨out, finiteIdx (func x), kept, ?_, ho2, ?_, fun i => mem_finiteIdx, hk2, ?_, ho4⟩
  · simp only [runNoNan, hk1, except_bind_ok, hlen]
    exact ho1
  · exact List.pairwise_lt_range.filter _
  · intro k i hki
    have hklt : k < (func kept).length := hkl ▸ (List.getElem?_eq_some_iff.1 hki).1
    rw [ho3 k i ((func kept)[k]) hki (List.getElem?_eq_getElem hklt), List.getElem?_eq_getElem hklt]

/-- C289, a function that looks at each event alone: the result is its value where that is finite and zero elsewhere,
so nothing of it is NaN or infinite. -/
theorem run_no_nan_pointwise [AddZeroClass K] {X : Type} (f : X → Fl K) (x : List X) :
    runNoNan (List.map f) x = .ok (x.map fun e => some ((f e).getD 0)) := by
  obtain ⟨out, idx, kept, h1, h2, -, h4, h5, h6, h7⟩ := run_no_nan_spec (List.map f) x (by simp)
  rw [h1]
  congr 1
  apply List.ext_getElem?
  intro i
  rcases Nat.lt_or_ge i x.length with hi | hi
  · by_cases hm : i ∈ idx
    · obtain ⟨k, hk, hki⟩ := List.mem_iff_getElem.1 hm
      have hk? : idx[k]? = some i := by rw [List.getElem?_eq_getElem hk, hki]
      rw [h6 k i hk?]
      have hkept : kept[k]? = some x[i] := by
        have := congrArg (·[k]?) h5
        simp only [List.getElem?_map, hk?, Option.map_some, List.getElem?_eq_getElem hi] at this
        cases hk' : kept[k]? with
        | none => simp [hk'] at this
        | some e => simp [hk'] at this; simp [this]
      obtain ⟨a, ha⟩ := (h4 i).1 hm
      simp only [List.getElem?_map, List.getElem?_eq_getElem hi, Option.map_some, Option.some.injEq] at ha
      simp [List.getElem?_map, hkept, hi, ha]
    · rw [h7 i hi hm]
      have : f x[i] = none := by
        cases hf : f x[i] with
        | none => rfl
        | some a => exact absurd ((h4 i).2 ⟨a, by simp [hi, hf]⟩) hm
      simp [hi, this]
  · rw [List.getElem?_eq_none (by omega), List.getElem?_eq_none (by simpa using hi)]

/-- C289, two calls: a function whose value at an event depends on the other events is evaluated on the remaining events
only, so that the result can differ from the first call (here the number of events), and contain what is not finite. -/
theorem run_no_nan_second_call :
    runNoNan (K := ℚ) (fun y : List ℚ => y.map fun e => if e = 0 then none else some (y.length : ℚ)) [1, 0, 1] =
      .ok [some 2, some 0, some 2] ∧
    runNoNan (K := ℚ) (fun y : List ℚ => y.map fun e => if e = 0 ∨ y.length < 3 then none else some (y.length : ℚ)) [1, 0, 1] =
      .ok [none, some 0, none] := by
  constructor <;> decide +kernel

example : runNoNan (List.map fun e : ℚ => if e = 0 then none else some (1 / e)) [2, 0, 4] =
    .ok [some (1 / 2), some 0, some (1 / 4)] := by decide +kernel

/-! ### C290 powers and polynomials -/

/-- C290: `nth_pow` is the power for every natural exponent and an error for negative ones. -/
theorem nth_pow_eq [CommRing K] (x : K) (n : ℤ) :
    (∀ m : ℕ, n = m → nthPow x n = .ok (x ^ m)) ∧ (n < 0 → nthPow x n = .error .valueError) := by
  constructor
  · rintro m rfl
    have : ∀ m : ℕ, (List.range m).foldl (fun p _ => p * x) (1 : K) = x ^ m := by
      intro m
      induction m with
      | zero => simp
      | succ m ih => simp [List.range_succ, ih, pow_succ]
    simp [nthPow, this]
  · intro h
    simp [nthPow, h]

/-- C290: the polynomial, whichever way powers are taken (`real_x` given or None): the coefficients are in rising order
and the last argument is `x`. -/
theorem poly_complex_eq [CommRing K] (c0 : K) (cs : List K) (x : K) (realX : Option Bool) :
    polyComplex (c0 :: cs ++ [x]) realX =
      .ok (∑ p ∈ Finset.range (cs.length + 1), (c0 :: cs).getD p 0 * x ^ p) := by
  have hlast : (c0 :: cs ++ [x]).getLast? = some x := List.getLast?_concat
  have hdrop : (c0 :: cs ++ [x]).dropLast = c0 :: cs := List.dropLast_concat
  unfold polyComplex
  rw [hlast]
  simp only [hdrop]
  rw [mapM_ok_of_forall _ (fun pc => pc.2 * x ^ pc.1)]
  · simp only [except_bind_ok]
    have hsum : ∀ (l : List K) (a : K), l.foldl (· + ·) a = a + l.sum := by
      intro l
      induction l with
      | nil => simp
      | cons b l ih => intro a; rw [List.foldl_cons, ih, List.sum_cons]; ring
    have hadd : ∀ l : List K, l ≠ [] → addN l = .ok l.sum := by
      intro l hl
      cases l with
      | nil => exact absurd rfl hl
      | cons a l => simp [addN, hsum]
    rw [hadd _ (by simp [List.range_succ_eq_map])]
    congr 1
    have : ∀ l : List K, (((List.range l.length).zip l).map fun pc => pc.2 * x ^ pc.1) =
        (List.range l.length).map fun p => l.getD p 0 * x ^ p := by
      intro l
      apply List.ext_getElem
      · simp
      · intro i h1 h2
        simp only [List.length_map, List.length_range] at h2
        simp [h2]
    rw [this]
    have hfin : ∀ (n : ℕ) (g : ℕ → K), ((List.range n).map g).sum = ∑ p ∈ Finset.range n, g p := by
      intro n g
      induction n with
      | zero => simp
      | succ n ih => simp [List.range_succ, Finset.sum_range_succ, ih]
    rw [hfin]
    simp
  · rintro ⟨p, c⟩ _
    cases realX with
    | none => simp [(nth_pow_eq x (p : ℤ)).1 p rfl]
    | some b => simp

/-- C290: without any argument or without coefficients there is an error. -/
theorem poly_complex_errors [CommRing K] (x : K) (realX : Option Bool) :
    polyComplex ([] : List K) realX = .error .indexError ∧ polyComplex [x] realX = .error .valueError := by
  constructor <;> simp [polyComplex, addN]

example : polyComplex [1, 2, 3, (10 : ℚ)] (some false) = .ok 321 ∧ polyComplex [1, 2, 3, (10 : ℚ)] none = .ok 321 := by
  constructor <;> decide +kernel

/-! ### C291 `sample_with_replacement` -/

/-- C291: along an axis with at least one entry the sample has the shape `a.shape[:axis] + sample_shape + a.shape[axis+1:]`,
and the part at each position `s` of the sample is the part of `a` at the entry drawn for this position alone; all
others axes stay as they are. Negative axes count from the end. -/
theorem sample_with_replacement_spec (draw : ℕ → List ℕ → ℕ) (a : Tensor K) (pre post : List ℕ) (d : ℕ) (hd : 0 < d)
    (ha : a.shape = pre ++ d :: post) (axis : ℤ)
    (hax : axis = pre.length ∨ axis = pre.length - (a.shape.length : ℤ)) (sampleShape : List ℕ)
    (hdraw : ∀ s, InShape s sampleShape → draw d s < d) :
    ∃ out, sampleWithReplacement draw a axis sampleShape = .ok out ∧ out.shape = pre ++ sampleShape ++ post ∧
      ∀ i s j, InShape i pre → InShape s sampleShape → InShape j post →
        draw d s < d ∧ out.elem (i ++ s ++ j) = a.elem (i ++ draw d s :: j) := by
  have hlen : a.shape.length = pre.length + 1 + post.length := by rw [ha]; simp; omega
  have hA : axisOf a.shape.length axis = .ok pre.length := by
    unfold axisOf
    rcases hax with h | h
    · rw [if_pos ⟨by omega, by omega⟩, h]; simp
    · rw [if_neg (by omega), if_pos ⟨by omega, by omega⟩, h]
      congr 1
      omega
  have hdim : a.shape.getD pre.length 0 = d := by rw [ha]; simp
  refine ⟨gatherAxis a sampleShape (draw d) pre.length, ?_, ?_, ?_⟩
  · simp only [sampleWithReplacement, hA, except_bind_ok, hdim]
    rw [if_neg (by omega)]
  · simp only [gatherAxis, ha]
    rw [List.take_left, List.drop_append]
    simp
  · intro i s j hi hs hj
    have hil : i.length = pre.length := List.Forall₂.length_eq hi
    have hsl : s.length = sampleShape.length := List.Forall₂.length_eq hs
    refine ⟨hdraw s hs, ?_⟩
    simp only [gatherAxis, List.append_assoc]
    rw [← hil, ← hsl]
    have : List.drop (i.length + s.length) i = [] := List.drop_eq_nil_of_le (by omega)
    simp [List.drop_append, this]

/-- C291: nothing can be drawn from an axis without entries or from an axis that does not exist. -/
theorem sample_with_replacement_errors (draw : ℕ → List ℕ → ℕ) (a : Tensor K) (axis : ℤ) (sampleShape : List ℕ) :
    ((a.shape.length : ℤ) ≤ axis ∨ axis < -(a.shape.length : ℤ) →
      sampleWithReplacement draw a axis sampleShape = .error .invalidArgument) ∧
    (∀ k : ℕ, axis = k → a.shape[k]? = some 0 → sampleWithReplacement draw a axis sampleShape = .error .invalidArgument) := by
  constructor
  · intro h
    have : axisOf a.shape.length axis = .error .invalidArgument := by
      unfold axisOf
      rw [if_neg (by omega), if_neg (by omega)]
    simp [sampleWithReplacement, this]
  · rintro k rfl hk
    have hlt : k < a.shape.length := (List.getElem?_eq_some_iff.1 hk).1
    have : axisOf a.shape.length (k : ℤ) = .ok k := by
      unfold axisOf
      rw [if_pos ⟨by omega, by omega⟩]; simp
    simp [sampleWithReplacement, this, hk]

/-- A case that meets the hypotheses: two rows of three columns, four columns drawn with the last axis given as -1. -/
example : ∃ out, sampleWithReplacement (fun _ s => (s.getD 0 0 * 2) % 3) ⟨[2, 3], fun i => i⟩ (-1) [4] = .ok out ∧ out.shape = [2, 4] ∧
    out.elem [1, 2] = [1, 1] ∧ out.elem [0, 3] = [0, 0] := ⟨_, rfl, by decide, by decide, by decide⟩

end Zfit.Zh
