import Verif.Part.Spec
import Mathlib.Algebra.BigOperators.Group.List.Basic
import Mathlib.Data.List.Perm.Basic
import Mathlib.Data.List.Nodup
import Mathlib.Tactic.NormNum

/-! # Numeric partial integrals: observables by name -/

namespace Zfit.Part

open Zfit

/-! ### Dictionaries -/

theorem dictGet_cons {α : Type} (k : String) (v : α) (d : List (String × α)) (o : String) :
    dictGet ((k, v) :: d) o = if k = o then some v else dictGet d o := by
  by_cases h : k = o <;> simp [dictGet, List.find?, h]

theorem dictGet_none {α : Type} (d : List (String × α)) (o : String) : dictGet d o = none ↔ o ∉ d.map (·.1) := by
  induction d with
  | nil => simp [dictGet]
  | cons p d ih =>
    rw [show p = (p.1, p.2) from rfl, dictGet_cons]
    by_cases h : p.1 = o
    · simp [h]
    · simp only [h, if_false, ih, List.map_cons, List.mem_cons, not_or]
      exact ⟨fun h' => ⟨fun h'' => h h''.symm, h'⟩, fun h' => h'.2⟩

theorem dictGet_mem {α : Type} (d : List (String × α)) (hd : (d.map (·.1)).Nodup) (o : String) (v : α) :
    dictGet d o = some v ↔ (o, v) ∈ d := by
  induction d with
  | nil => simp [dictGet]
  | cons p d ih =>
    rw [List.map_cons, List.nodup_cons] at hd
    rw [show p = (p.1, p.2) from rfl, dictGet_cons]
    by_cases h : p.1 = o
    · subst h
      simp only [if_true, Option.some.injEq, List.mem_cons, Prod.mk.injEq, true_and]
      constructor
      · rintro rfl; exact .inl rfl
      · rintro (h | h)
        · exact h.symm
        · exact absurd (List.mem_map_of_mem (f := (·.1)) h) hd.1
    · simp only [h, if_false, ih hd.2, List.mem_cons, Prod.mk.injEq]
      exact ⟨.inr, fun h' => h'.elim (fun h'' => absurd h''.1.symm h) id⟩

theorem dictGet_perm {α : Type} {d d' : List (String × α)} (hd : (d.map (·.1)).Nodup) (hp : d.Perm d') (o : String) :
    dictGet d o = dictGet d' o := by
  have hd' : (d'.map (·.1)).Nodup := (hp.map _).nodup hd
  apply Option.ext
  intro v
  rw [dictGet_mem d hd, dictGet_mem d' hd']
  exact hp.mem_iff

theorem dictGet_merge (a b : List (String × ℝ)) (hb : (b.map (·.1)).Nodup) (o : String) :
    dictGet (merge a b) o = (dictGet b o).or (dictGet a o) := by
  unfold merge
  induction b generalizing a with
  | nil => simp [dictGet]
  | cons p b ih =>
    rw [List.map_cons, List.nodup_cons] at hb
    rw [List.foldl_cons, ih _ hb.2, show p = (p.1, p.2) from rfl, dictGet_cons]
    by_cases h : p.1 = o
    · subst h
      rw [(dictGet_none b p.1).2 hb.1]
      simp [dictGet_set_self]
    · simp only [h, if_false]
      rw [dictGet_set_ne _ _ _ _ (fun h' => h h'.symm)]

theorem sorted_cons {α : Type} (o : String) (obs : List String) (cols : List (String × α)) :
    sorted (o :: obs) cols = match dictGet cols o with
      | some v => (o, v) :: sorted obs cols
      | none => sorted obs cols := by
  unfold sorted
  rw [List.filterMap_cons]
  cases dictGet cols o <;> rfl

theorem sorted_keys {α : Type} (obs : List String) (cols : List (String × α)) :
    (sorted obs cols).map (·.1) = obs.filter fun o => decide (o ∈ cols.map (·.1)) := by
  induction obs with
  | nil => rfl
  | cons o obs ih =>
    rw [sorted_cons]
    cases h : dictGet cols o with
    | none =>
      have := (dictGet_none cols o).1 h
      rw [List.filter_cons_of_neg (by simpa using this)]
      exact ih
    | some v =>
      have : o ∈ cols.map (·.1) := by
        by_contra hc
        rw [(dictGet_none cols o).2 hc] at h
        cases h
      rw [List.filter_cons_of_pos (by simpa using this), List.map_cons, ih]

theorem dictGet_sorted {α : Type} (obs : List String) (cols : List (String × α)) (o : String) (ho : o ∈ obs) :
    dictGet (sorted obs cols) o = dictGet cols o := by
  induction obs with
  | nil => cases ho
  | cons a obs ih =>
    rw [sorted_cons]
    by_cases h : a = o
    · subst h
      cases hc : dictGet cols a with
      | some v => simp only; rw [dictGet_cons, if_pos rfl]
      | none =>
        simp only
        rw [dictGet_none, sorted_keys]
        have := (dictGet_none cols a).1 hc
        intro hm
        rw [List.mem_filter] at hm
        exact this (by simpa using hm.2)
    · have ho' : o ∈ obs := (List.mem_cons.1 ho).elim (fun h' => absurd h'.symm h) id
      cases hc : dictGet cols a with
      | some v => simp only; rw [dictGet_cons, if_neg h]; exact ih ho'
      | none => exact ih ho'

theorem sorted_nodup {α : Type} {obs : List String} (hobs : obs.Nodup) (cols : List (String × α)) :
    ((sorted obs cols).map (·.1)).Nodup := by
  rw [sorted_keys]
  exact hobs.filter _

theorem sorted_perm {α : Type} {obs : List String} (hobs : obs.Nodup) {cols : List (String × α)}
    (hc : (cols.map (·.1)).Nodup) (hk : ∀ o ∈ cols.map (·.1), o ∈ obs) : (sorted obs cols).Perm cols := by
  have h1 := sorted_nodup hobs cols
  refine (List.perm_ext_iff_of_nodup h1.of_map hc.of_map).2 ?_
  rintro ⟨o, v⟩
  rw [← dictGet_mem _ h1, ← dictGet_mem _ hc]
  by_cases ho : o ∈ obs
  · rw [dictGet_sorted obs cols o ho]
  · have h2 : dictGet cols o = none := (dictGet_none cols o).2 (fun h => ho (hk o h))
    have h3 : dictGet (sorted obs cols) o = none := by
      rw [dictGet_none, sorted_keys]
      exact fun h => ho (List.mem_filter.1 h).1
    rw [h2, h3]

theorem sorted_congr {α : Type} (obs : List String) {cols cols' : List (String × α)}
    (h : ∀ o, dictGet cols o = dictGet cols' o) : sorted obs cols = sorted obs cols' := by
  unfold sorted
  simp only [h]

theorem dictGet_stretch (limits : List (String × ℝ × ℝ)) (u : List ℝ) (hu : u.length = limits.length) (o : String) :
    dictGet (stretch limits u) o =
      (dictGet limits o).map fun l => l.1 + u.getD ((limits.map (·.1)).idxOf o) 0 * (l.2 - l.1) := by
  unfold stretch
  induction limits generalizing u with
  | nil => simp [dictGet]
  | cons l limits ih =>
    match u, hu with
    | s :: u, hu =>
      rw [List.zipWith_cons_cons, dictGet_cons, show l = (l.1, l.2) from rfl, dictGet_cons]
      by_cases h : l.1 = o
      · simp [h, List.idxOf_cons, add_comm]
      · simp only [h, if_false]
        rw [ih u (by simpa using hu)]
        have : ((l.1, l.2) :: limits).map (·.1) = l.1 :: limits.map (·.1) := rfl
        rw [this, List.idxOf_cons]
        have hb : (l.1 == o) = false := by simpa using h
        simp [hb]

/-! ### The value -/

/-- The number of the dimension of the drawn points that belongs to an observable: its position among the integrated
observables, in the order of the model. -/
def dimension (obs : List String) (limits : List (String × ℝ × ℝ)) (o : String) : ℕ :=
  (obs.filter fun o => decide (o ∈ limits.map (·.1))).idxOf o

theorem eval_point (F : Fn) (hF : F.obs.Nodup) (limits : List (String × ℝ × ℝ)) (x : List (String × ℝ))
    (hc : Complementary F.obs limits x) (u : List ℝ) (hu : u.length = limits.length) :
    F.eval (point (sorted F.obs limits) (sorted F.obs x) u) =
      F.f (F.obs.map (coordinate limits x fun o => u.getD (dimension F.obs limits o) 0)) := by
  unfold Fn.eval
  congr 1
  apply List.map_congr_left
  intro o ho
  have hlen : u.length = (sorted F.obs limits).length := by
    rw [hu, (sorted_perm hF hc.once hc.known).length_eq]
  unfold point
  rw [dictGet_merge _ _ (sorted_nodup hF x), dictGet_sorted _ _ _ ho, dictGet_stretch _ _ hlen, dictGet_sorted _ _ _ ho]
  unfold coordinate
  cases hl : dictGet limits o with
  | none => simp
  | some l =>
    have hmem : o ∈ limits.map (·.1) := by
      by_contra h
      rw [(dictGet_none limits o).2 h] at hl
      cases hl
    rw [(dictGet_none x o).2 (hc.disjoint o hmem)]
    simp [dimension, sorted_keys]

/-- C140: with limits and event that share the observables of the model between them, the numeric partial integral is the
volume of the limits times the plain mean of the function over points where each observable of the limits takes a value drawn
in its own limits and each other observable the value of the event of that name. -/
theorem partial_mc_value (F : Fn) (hF : F.obs.Nodup) (d : Drawing) (limits : List (String × ℝ × ℝ)) (x : List (String × ℝ))
    (hc : Complementary F.obs limits x) (hd : ∀ j, (d.halton j).length = limits.length) (hlim : limits ≠ [])
    (hdraw : 0 < d.drawsPerDim) (htol : d.tol < 9999) (hmax : 0 < d.maxDraws) (vectorize : Bool) :
    ∃ N, 0 < N ∧ (vectorize = true → N = d.drawsPerDim * limits.length) ∧ ∀ fuel, d.maxDraws < fuel →
      F.partialMc d vectorize fuel limits x = some (Num.plainMean (fun j =>
        F.f (F.obs.map (coordinate limits x fun o => (d.halton j).getD (dimension F.obs limits o) 0))) N *
        (limits.map fun l => l.2.2 - l.2.1).prod) := by
  have hperm := sorted_perm hF hc.once hc.known
  have hlen : (sorted F.obs limits).length = limits.length := hperm.length_eq
  have hpos : 0 < (F.mc d (sorted F.obs limits) (sorted F.obs x)).nSamples := by
    show 0 < d.drawsPerDim * (sorted F.obs limits).length
    rw [hlen]
    exact Nat.mul_pos hdraw (List.length_pos_iff.2 hlim)
  have hy : (F.mc d (sorted F.obs limits) (sorted F.obs x)).y = fun j =>
      F.f (F.obs.map (coordinate limits x fun o => (d.halton j).getD (dimension F.obs limits o) 0)) := by
    funext j
    exact eval_point F hF limits x hc _ (hd j)
  have harea : area (sorted F.obs limits) = (limits.map fun l => l.2.2 - l.2.1).prod := by
    unfold area
    exact (hperm.map _).prod_eq
  cases vectorize with
  | true =>
    refine ⟨d.drawsPerDim * limits.length, Nat.mul_pos hdraw (List.length_pos_iff.2 hlim), fun _ => rfl, ?_⟩
    intro fuel _
    unfold Fn.partialMc
    rw [Num.mc_vectorizable _ hpos, harea, hy]
    show some (Num.plainMean _ (d.drawsPerDim * (sorted F.obs limits).length) * _) = _
    rw [hlen]
  | false =>
    obtain ⟨l, hl⟩ := Num.mc_terminates _ hpos
    have h1 := Num.mc_average _ hpos htol hmax (d.maxDraws + 1) l (hl _ (Nat.lt_succ_self _))
    refine ⟨l.ntot, ?_, fun h => (by cases h), ?_⟩
    · rw [h1.2.1]; exact Nat.mul_pos h1.1 hpos
    · intro fuel hfuel
      unfold Fn.partialMc Num.Mc.average
      rw [if_neg (by simp), hl fuel hfuel, harea]
      simp only [Option.map_some]
      rw [h1.2.2.1, hy]

/-- C140: the order in which the observables of the limits and of the event are given does not matter. -/
theorem partial_mc_order (F : Fn) (d : Drawing) (vectorize : Bool) (fuel : ℕ) (limits limits' : List (String × ℝ × ℝ))
    (x x' : List (String × ℝ)) (hl : (limits.map (·.1)).Nodup) (hx : (x.map (·.1)).Nodup) (pl : limits.Perm limits')
    (px : x.Perm x') : F.partialMc d vectorize fuel limits x = F.partialMc d vectorize fuel limits' x' := by
  unfold Fn.partialMc
  rw [sorted_congr F.obs (dictGet_perm hl pl), sorted_congr F.obs (dictGet_perm hx px)]

/-- C141 (partial: observables that the model does not have): further observables of the event are ignored. Missing from the full claim: the
cases of `partial_mc_overlap_violated`. -/
theorem partial_mc_extra_partial (F : Fn) (d : Drawing) (vectorize : Bool) (fuel : ℕ) (limits : List (String × ℝ × ℝ))
    (x extra : List (String × ℝ)) (h : ∀ o ∈ extra.map (·.1), o ∉ F.obs) :
    F.partialMc d vectorize fuel limits (extra ++ x) = F.partialMc d vectorize fuel limits x := by
  have key : sorted F.obs (extra ++ x) = sorted F.obs x := by
    unfold sorted
    apply List.filterMap_congr
    intro o ho
    have : dictGet (extra ++ x) o = dictGet x o := by
      induction extra with
      | nil => rfl
      | cons p extra ih =>
        rw [List.cons_append, show p = (p.1, p.2) from rfl, dictGet_cons, if_neg (fun hp : p.1 = o => h p.1 (by simp) (hp ▸ ho)),
          ih (fun o' ho' => h o' (by rw [List.map_cons]; exact List.mem_cons_of_mem _ ho'))]
    rw [this]
  unfold Fn.partialMc
  rw [key]

/-- C141, refuted: if the event also has the observables that are integrated over, its values are used in place of the drawn
ones: the result is the function at the event times the volume of the limits, whatever the limits are, and nothing is
integrated.  (Here for graph mode, where one batch is used.) -/
theorem partial_mc_overlap_violated (F : Fn) (hF : F.obs.Nodup) (d : Drawing) (fuel : ℕ) (limits : List (String × ℝ × ℝ))
    (x : List (String × ℝ)) (hx : ∀ o ∈ F.obs, o ∈ x.map (·.1)) (hl : (limits.map (·.1)).Nodup)
    (hk : ∀ o ∈ limits.map (·.1), o ∈ F.obs) (hlim : limits ≠ []) (hdraw : 0 < d.drawsPerDim) :
    F.partialMc d true fuel limits x =
      some (F.f (F.obs.map fun o => (dictGet x o).getD 0) * (limits.map fun l => l.2.2 - l.2.1).prod) := by
  have hperm := sorted_perm hF hl hk
  have hlen : (sorted F.obs limits).length = limits.length := hperm.length_eq
  have hpos : 0 < d.drawsPerDim * (sorted F.obs limits).length := by
    rw [hlen]
    exact Nat.mul_pos hdraw (List.length_pos_iff.2 hlim)
  have hy : (F.mc d (sorted F.obs limits) (sorted F.obs x)).y = fun _ => F.f (F.obs.map fun o => (dictGet x o).getD 0) := by
    funext j
    show F.eval (point _ _ _) = _
    unfold Fn.eval point
    congr 1
    apply List.map_congr_left
    intro o ho
    rw [dictGet_merge _ _ (sorted_nodup hF x), dictGet_sorted _ _ _ ho]
    have : dictGet x o ≠ none := fun h => (dictGet_none x o).1 h (hx o ho)
    obtain ⟨v, hv⟩ := Option.ne_none_iff_exists'.1 this
    rw [hv]
    rfl
  have harea : area (sorted F.obs limits) = (limits.map fun l => l.2.2 - l.2.1).prod := (hperm.map _).prod_eq
  unfold Fn.partialMc
  rw [Num.mc_vectorizable _ hpos, harea, hy]
  show some (Num.plainMean _ (d.drawsPerDim * (sorted F.obs limits).length) * _) = _
  have hne : ((d.drawsPerDim * (sorted F.obs limits).length : ℕ) : ℝ) ≠ 0 := by
    exact_mod_cast hpos.ne'
  congr 2
  unfold Num.plainMean
  rw [List.map_const', List.sum_replicate, List.length_range, nsmul_eq_mul]
  exact mul_div_cancel_left₀ _ hne

/-! ### Non-vacuity: `a + 10 b` integrated over `a` in `[0, 2]` at `b = 1`. -/

noncomputable def exFn : Fn := ⟨["a", "b"], fun row => row.getD 0 0 + 10 * row.getD 1 0⟩

/-- Points in the middle. -/
noncomputable def exDraw : Drawing := ⟨fun _ => [1 / 2], fun _ _ _ => 0, fun _ _ => 0, 1, 10, 4⟩

theorem ex_complementary : Complementary exFn.obs [("a", 0, 2)] [("b", 1)] where
  cover := by simp [exFn]
  disjoint := by simp
  known := by simp [exFn]
  once := by simp

example : ∃ N, 0 < N ∧ ∀ fuel, 10 < fuel → exFn.partialMc exDraw false fuel [("a", 0, 2)] [("b", 1)] =
    some (Num.plainMean (fun _ => 11) N * 2) := by
  obtain ⟨N, h1, _, h3⟩ := partial_mc_value exFn (by simp [exFn]) exDraw _ _ ex_complementary (by simp [exDraw]) (by simp)
    (by simp [exDraw]) (by norm_num [exDraw]) (by simp [exDraw]) false
  refine ⟨N, h1, fun fuel hf => ?_⟩
  rw [h3 fuel hf]
  congr 2
  · congr 1
    funext j
    have hab : ¬ ("a" = "b") := by decide
    norm_num [exFn, coordinate, dictGet, exDraw, dimension, hab, List.find?]
  · simp

/-- With the observable `a` also in the event (value 5): 15 times 2 instead of the integral over `a`. -/
example (fuel : ℕ) : exFn.partialMc exDraw true fuel [("a", 0, 2)] [("a", 5), ("b", 1)] = some 30 := by
  rw [partial_mc_overlap_violated exFn (by simp [exFn]) exDraw fuel _ _ (by simp [exFn]) (by simp) (by simp [exFn]) (by simp)
    (by simp [exDraw])]
  have hab : ¬ ("a" = "b") := by decide
  norm_num [exFn, dictGet, List.find?, hab]

end Zfit.Part
