import Verif.Sample.Model
import Verif.Common.Except
import Mathlib.Algebra.Order.Floor.Ring
import Mathlib.Tactic.Linarith
import Mathlib.Tactic.Ring
import Mathlib.Tactic.FieldSimp
import Mathlib.Tactic.NormNum
import Mathlib.Algebra.Order.BigOperators.Group.List
import Mathlib.Data.List.Perm.Basic
import Mathlib.Algebra.BigOperators.Group.List.Basic

/-!
# Properties of sampling

* C42 `accept_reject_exact`, `accept_reject_inside`, `accept_reject_never_raises`, `accept_reject_envelope`
* C43 `uniform_split`, `uniform_sample_exact`, `limits_sample_exact`, `limits_sample_errors`
-/

namespace Zfit.Sample

open Zfit

variable {E : Type} {K : Type} [Field K] [LinearOrder K] [IsStrictOrderedRing K] [FloorRing K]

/-! ## C42 -/

/-- What the libraries guarantee: a binomial draw does not exceed the number of trials, a shuffle is a permutation. -/
structure Env.Lawful (env : Env E K) : Prop where
  binom_le : ∀ k n p, env.binom k n p ≤ n
  shuffle_perm : ∀ l, (env.shuffle l).Perm l

/-- `e` is a proposal of some batch that was accepted there: the probability of `e` exceeds its threshold times the bound `b` for it.  The
bounds of the batch are (with numeric checks) at least the probabilities, and, unless a maximum was given, a multiple of the weights.  A
batch consists of at most 800000 proposals (that fits into the memory). -/
def AcceptedIn (c : Cfg E K) (env : Env E K) (e : E) : Prop :=
  ∃ (k m : ℕ) (bounds : List K) (j : ℕ) (t b : K),
    0 < m ∧ m ≤ 800000 ∧
    (env.draw k m).sample[j]? = some e ∧ (env.draw k m).thresholds[j]? = some t ∧ bounds[j]? = some b ∧ t * b < c.prob e
    ∧ (c.numericChecks = true → ∀ (i : ℕ) (e' : E) (b' : K), (env.draw k m).sample[i]? = some e' → bounds[i]? = some b' → c.prob e' ≤ b')
    ∧ (c.probMax = none → ∃ s, bounds = (env.draw k m).weights.map (s * ·))

theorem nToProduce_range {c : Cfg E K} {s : St E K} {m : ℕ} (h : nToProduce c s = .ok m) : 0 < m ∧ m ≤ 800000 := by
  unfold nToProduce at h
  simp only at h
  split at h
  · have := Except.ok.inj h
    omega
  · cases h

theorem accepted_spec {c : Cfg E K} {env : Env E K} {k m : ℕ} {s : St E K} (hm : 0 < m ∧ m ≤ 800000)
    (hc : ¬ (c.numericChecks && (((env.draw k m).sample.map c.prob).zip (rescale c env k s (env.draw k m)).1).any
      (fun t => decide (t.2 < t.1))) = true) {e : E}
    (he : e ∈ accepted c (env.draw k m) (rescale c env k s (env.draw k m)).1) : AcceptedIn c env e := by
  unfold accepted at he
  obtain ⟨t, ht, rfl⟩ := List.mem_map.1 he
  obtain ⟨ht, hd⟩ := List.mem_filter.1 ht
  obtain ⟨j, hj, hget⟩ := List.getElem_of_mem ht
  simp only [List.length_zip] at hj
  have h1 : j < (env.draw k m).sample.length := by omega
  have h2 : j < (env.draw k m).thresholds.length := by omega
  have h3 : j < (rescale c env k s (env.draw k m)).1.length := by omega
  simp only [List.getElem_zip] at hget
  subst hget
  refine ⟨k, m, (rescale c env k s (env.draw k m)).1, j, (env.draw k m).thresholds[j], (rescale c env k s (env.draw k m)).1[j],
    hm.1, hm.2, by simp [h1], by simp [h2], by simp [h3], by simpa using hd, ?_, ?_⟩
  · intro hnum i e' b' he' hb'
    by_contra hlt
    apply hc
    rw [hnum, Bool.true_and, List.any_eq_true]
    obtain ⟨hi, rfl⟩ := List.getElem?_eq_some_iff.1 he'
    obtain ⟨hi', rfl⟩ := List.getElem?_eq_some_iff.1 hb'
    refine ⟨(c.prob (env.draw k m).sample[i], (rescale c env k s (env.draw k m)).1[i]), ?_, by simpa using hlt⟩
    rw [List.mem_iff_getElem]
    exact ⟨i, by simp; omega, by simp⟩
  · intro hp
    unfold rescale
    simp only [hp]
    exact ⟨_, rfl⟩

/-- The invariant of the loop. -/
structure Inv (c : Cfg E K) (env : Env E K) (s : St E K) : Prop where
  ex : ∃ M, s.nProduced ≤ M ∧ s.arr.length = max c.n M ∧ ∀ i < M, ∃ e, s.arr[i]? = some (some e) ∧ AcceptedIn c env e

theorem scatter_spec (arr : List (Option E)) (i : ℕ) (xs : List E) (h : i ≤ arr.length) :
    (scatter arr i xs).length = max arr.length (i + xs.length)
      ∧ (∀ j < i, (scatter arr i xs)[j]? = arr[j]?)
      ∧ (∀ j, i ≤ j → j < i + xs.length → (scatter arr i xs)[j]? = (xs[j - i]?).map some)
      ∧ (∀ j, i + xs.length ≤ j → (scatter arr i xs)[j]? = arr[j]?) := by
  have h0 : i - arr.length = 0 := by omega
  have hs : scatter arr i xs = arr.take i ++ xs.map some ++ arr.drop (i + xs.length) := by
    unfold scatter; rw [h0]; simp
  have hl : (arr.take i).length = i := by simp [h]
  rw [hs]
  refine ⟨by simp; omega, fun j hj => ?_, fun j hj hj' => ?_, fun j hj => ?_⟩
  · rw [List.getElem?_append_left (by simp; omega), List.getElem?_append_left (by simp; omega), List.getElem?_take_of_lt hj]
  · rw [List.getElem?_append_left (by simp; omega), List.getElem?_append_right (by omega), hl, List.getElem?_map]
  · rw [List.getElem?_append_right (by simp; omega), List.getElem?_drop]
    congr 1
    simp only [List.length_append, List.length_take, List.length_map]
    omega

theorem body_inv {c : Cfg E K} {env : Env E K} (hl : env.Lawful) {k : ℕ} {s s' : St E K} (h : Inv c env s)
    (hb : body c env k s = .ok s') : Inv c env s' := by
  obtain ⟨M, hM, hlen, hfill⟩ := h.ex
  unfold body at hb
  obtain ⟨m, hm, hb⟩ := bind_eq_ok.1 hb
  simp only at hb
  by_cases hc : (c.numericChecks && (((env.draw k m).sample.map c.prob).zip (rescale c env k s (env.draw k m)).1).any
      (fun t => decide (t.2 < t.1))) = true
  · rw [if_pos hc] at hb
    cases hb
  · rw [if_neg hc] at hb
    have hkeep : (rescale c env k s (env.draw k m)).2.1 ≤ s.nProduced := by
      unfold rescale
      split
      · exact le_refl _
      · simp only
        split
        · exact le_refl _
        · exact hl.binom_le _ _ _
    have hacc : ∀ e ∈ accepted c (env.draw k m) (rescale c env k s (env.draw k m)).1, AcceptedIn c env e :=
      fun e he => accepted_spec (nToProduce_range hm) hc he
    cases hb
    generalize rescale c env k s (env.draw k m) = r at hkeep hacc
    generalize accepted c (env.draw k m) r.1 = acc at hacc
    obtain ⟨hlen', hbefore, hnew, hafter⟩ := scatter_spec s.arr r.2.1 acc (by omega)
    refine ⟨⟨max M (r.2.1 + acc.length), by simp, by simp only [hlen', hlen]; omega, fun i hi => ?_⟩⟩
    simp only
    by_cases h1 : i < r.2.1
    · rw [hbefore i h1]
      exact hfill i (by omega)
    · by_cases h2 : i < r.2.1 + acc.length
      · rw [hnew i (by omega) h2]
        have hlt : i - r.2.1 < acc.length := by omega
        exact ⟨acc[i - r.2.1], by simp [hlt], hacc _ (List.getElem_mem hlt)⟩
      · rw [hafter i (by omega)]
        exact hfill i (by omega)

theorem loop_inv {c : Cfg E K} {env : Env E K} (hl : env.Lawful) (fuel k : ℕ) (s s' : St E K) (h : Inv c env s)
    (hr : loop c env fuel k s = some (.ok s')) : Inv c env s' ∧ c.n ≤ s'.nProduced := by
  induction fuel generalizing k s with
  | zero =>
    unfold loop at hr
    by_cases hn : c.n ≤ s.nProduced
    · rw [if_pos hn] at hr
      cases hr
      exact ⟨h, hn⟩
    · rw [if_neg hn] at hr
      cases hr
  | succ fuel ih =>
    unfold loop at hr
    by_cases hn : c.n ≤ s.nProduced
    · rw [if_pos hn] at hr
      cases hr
      exact ⟨h, hn⟩
    · rw [if_neg hn] at hr
      rcases hb : body c env k s with e | t
      · simp only [hb] at hr; cases hr
      · simp only [hb] at hr
        exact ih _ _ (body_inv hl h hb) hr

theorem finish_spec {c : Cfg E K} {env : Env E K} (hl : env.Lawful) {s : St E K} (hinv : Inv c env s) (hn : c.n ≤ s.nProduced) :
    ∃ r, finish c env s = .ok r ∧ r.length = c.n ∧ ∀ e ∈ r, AcceptedIn c env e := by
  obtain ⟨M, hM, hlen, hfill⟩ := hinv.ex
  have hlen' : s.arr.length = M := by omega
  have hall : ∀ o ∈ s.arr, ∃ e, o = some e ∧ AcceptedIn c env e := by
    intro o ho
    obtain ⟨i, hi, rfl⟩ := List.getElem_of_mem ho
    obtain ⟨e, he, ha⟩ := hfill i (by omega)
    exact ⟨e, by simpa [hi] using he, ha⟩
  have hst : ∀ st : List (Option E), st.Perm s.arr → ∃ r, (st.take c.n).mapM (fun (o : Option E) => match o with
      | some e => (.ok e : Except Err E)
      | none => .error .invalidArgument) = .ok r ∧ r.length = c.n ∧ ∀ e ∈ r, AcceptedIn c env e := by
    intro st hp
    have hg : ∀ l : List (Option E), (∀ o ∈ l, ∃ e, o = some e ∧ AcceptedIn c env e) → ∃ r : List E, l = r.map some ∧
        ∀ e ∈ r, AcceptedIn c env e := by
      intro l hl
      induction l with
      | nil => exact ⟨[], rfl, by simp⟩
      | cons o os ih =>
        obtain ⟨r, hr, hra⟩ := ih (fun x hx => hl x (List.mem_cons_of_mem _ hx))
        obtain ⟨e, he, ha⟩ := hl o List.mem_cons_self
        refine ⟨e :: r, by rw [he, hr]; rfl, fun x hx => ?_⟩
        rcases List.mem_cons.1 hx with rfl | hx
        · exact ha
        · exact hra x hx
    obtain ⟨r, hr, hra⟩ := hg (st.take c.n) (fun o ho => hall o (hp.subset (List.mem_of_mem_take ho)))
    refine ⟨r, ?_, ?_, hra⟩
    · rw [mapM_ok_iff, hr, List.map_map]; rfl
    · have := congrArg List.length hr
      rw [List.length_take, hp.length_eq, List.length_map, hlen'] at this
      omega
  unfold finish
  simp only
  split
  · exact hst _ (hl.shuffle_perm _)
  · exact hst _ (List.Perm.refl _)

/-- Whatever the random numbers, whenever the loop ends without an exception the sampling returns, and it returns exactly `n` events, each of
them accepted. -/
theorem accept_reject_exact (c : Cfg E K) (env : Env E K) (hl : env.Lawful) (fuel : ℕ) :
    (∀ r, acceptReject c env fuel = some (.ok r) → r.length = c.n ∧ ∀ e ∈ r, AcceptedIn c env e)
      ∧ (∀ s, loop c env fuel 0 (start c) = some (.ok s) → ∃ r, acceptReject c env fuel = some (.ok r)) := by
  have key : ∀ s, loop c env fuel 0 (start c) = some (.ok s) →
      ∃ r, finish c env s = .ok r ∧ r.length = c.n ∧ ∀ e ∈ r, AcceptedIn c env e := by
    intro s hr
    obtain ⟨hi, hn⟩ := loop_inv hl fuel 0 (start c) s ⟨0, by simp [start], by simp [start], by simp⟩ hr
    exact finish_spec hl hi hn
  unfold acceptReject
  constructor
  · intro r h
    rcases hr : loop c env fuel 0 (start c) with _ | e | s
    · simp [hr] at h
    · simp [hr] at h
    · simp only [hr, Option.some.injEq] at h
      obtain ⟨r', hr', hlen, ha⟩ := key s hr
      rw [hr'] at h
      cases h
      exact ⟨hlen, ha⟩
  · intro s hr
    obtain ⟨r', hr', -⟩ := key s hr
    exact ⟨r', by rw [hr]; simp only [hr']⟩

/-- If all proposals are inside the limits, so are all events. -/
theorem accept_reject_inside (c : Cfg E K) (env : Env E K) (hl : env.Lawful) (fuel : ℕ) (r : List E) (inside : E → Prop)
    (hin : ∀ k m, ∀ e ∈ (env.draw k m).sample, inside e) (h : acceptReject c env fuel = some (.ok r)) :
    ∀ e ∈ r, inside e := by
  intro e he
  obtain ⟨k, m, b, j, t, b', -, -, hs, -⟩ := ((accept_reject_exact c env hl fuel).1 r h).2 e he
  exact hin k m e (List.mem_of_getElem? hs)

theorem nToProduce_ok (c : Cfg E K) (s : St E K) (hn : s.nProduced < c.n) (he : s.eff ≤ 1) : ∃ m, nToProduce c s = .ok m ∧ 0 < m := by
  have h1 : (101 : ℤ) ≤ ⌊1 / max s.eff (1 / 1000000) * (101 / 100) * 100⌋ := by
    rw [Int.le_floor]
    have hpos : (0 : K) < max s.eff (1 / 1000000) := lt_max_of_lt_right (by norm_num)
    have hle : max s.eff (1 / 1000000) ≤ 1 := max_le he (by norm_num)
    have : (1 : K) ≤ 1 / max s.eff (1 / 1000000) := by
      rw [le_div_iff₀ hpos]; linarith
    push_cast
    linarith
  have h2 : (0 : ℤ) < Int.fdiv (((c.n : ℤ) - s.nProduced) * ⌊1 / max s.eff (1 / 1000000) * (101 / 100) * 100⌋) 100 := by
    generalize ⌊1 / max s.eff (1 / 1000000) * (101 / 100) * 100⌋ = f at h1
    have hd : (1 : ℤ) ≤ (c.n : ℤ) - s.nProduced := by omega
    have : (101 : ℤ) ≤ ((c.n : ℤ) - s.nProduced) * f := by nlinarith
    rw [Int.fdiv_eq_ediv_of_nonneg _ (by norm_num)]
    omega
  refine ⟨_, if_pos (lt_max_of_lt_left h2), ?_⟩
  have := lt_max_of_lt_left (c := c.nMin) h2
  omega

theorem le_maxOf {l : List K} {x : K} (h : x ∈ l) : x ≤ maxOf l := by
  have key : ∀ (l : List K) (a : K), a ≤ l.foldl max a ∧ ∀ x ∈ l, x ≤ l.foldl max a := by
    intro l
    induction l with
    | nil => intro a; simp
    | cons b l ih =>
      intro a
      simp only [List.foldl_cons]
      refine ⟨(le_max_left a b).trans (ih _).1, fun x hx => ?_⟩
      rcases List.mem_cons.1 hx with rfl | hx
      · exact (le_max_right a x).trans (ih _).1
      · exact (ih _).2 x hx
  exact (key l 0).2 x h

theorem maxOf_le {l : List K} {b : K} (h0 : 0 ≤ b) (h : ∀ x ∈ l, x ≤ b) : maxOf l ≤ b := by
  have key : ∀ (l : List K) (a : K), a ≤ b → (∀ x ∈ l, x ≤ b) → l.foldl max a ≤ b := by
    intro l
    induction l with
    | nil => intro a ha _; exact ha
    | cons c l ih =>
      intro a ha hl
      exact ih _ (max_le ha (hl c List.mem_cons_self)) (fun x hx => hl x (List.mem_cons_of_mem _ hx))
  exact key l 0 h0 h

/-- The scaling is raised if needed, never lowered. Afterwards it covers every proposal of the batch whose weight is not tiny
compared to the largest weight seen so far: its probability is at most the scaled weight, so that it is accepted with the right
probability.  When the scaling is raised, there is a margin for proposals to come: a quarter if the maximum is not known, otherwise one per
mille. -/
theorem accept_reject_envelope (c : Cfg E K) (s : St E K) (d : Draw E K) :
    s.scaling ≤ (estimate c s d).1 ∧ s.wMax ≤ (estimate c s d).2.1 ∧ (∀ w ∈ d.weights, w ≤ (estimate c s d).2.1)
      ∧ ∀ (j : ℕ) (e : E) (w : K), d.sample[j]? = some e → d.weights[j]? = some w → 0 < w →
          (estimate c s d).2.1 / 100000 ≤ w → c.prob e ≤ (estimate c s d).1 * w
            ∧ (s.scaling < (estimate c s d).1 → c.prob e * (if c.probMax.isNone then 5 / 4 else 1001 / 1000) ≤ (estimate c s d).1 * w) := by
  have hover : (1 : K) ≤ c.overestimate := by unfold Cfg.overestimate; split <;> norm_num
  have hmax0 : ∀ l : List K, 0 ≤ maxOf l := by
    intro l
    have key : ∀ (l : List K) (a : K), 0 ≤ a → 0 ≤ l.foldl max a := by
      intro l
      induction l with
      | nil => intro a ha; exact ha
      | cons b l ih => intro a ha; exact ih _ (le_max_of_le_left ha)
    exact key l 0 le_rfl
  unfold estimate
  simp only
  obtain ⟨W, hW⟩ : ∃ W, W = max s.wMax (maxOf d.weights) := ⟨_, rfl⟩
  obtain ⟨R, hR⟩ : ∃ R, R = max (max s.pMax (maxOf (d.sample.map c.prob)) / W)
      (maxOf (List.zipWith (· / ·) (d.sample.map c.prob) (d.weights.map (fun w => max w (W / 100000))))) := ⟨_, rfl⟩
  rw [← hW, ← hR]
  have hR0 : 0 ≤ R := by rw [hR]; exact le_max_of_le_right (hmax0 _)
  have hRR : R ≤ R * c.overestimate := by nlinarith
  refine ⟨?_, by rw [hW]; exact le_max_left _ _, fun w hw => by rw [hW]; exact le_max_of_le_right (le_maxOf hw), ?_⟩
  · split
    · linarith
    · exact le_rfl
  · intro j e w he hw hw0 hlarge
    have hmem : c.prob e / w ∈ List.zipWith (· / ·) (d.sample.map c.prob) (d.weights.map (fun w => max w (W / 100000))) := by
      apply List.mem_of_getElem? (i := j)
      rw [List.getElem?_zipWith, List.getElem?_map, List.getElem?_map, he, hw]
      simp [max_eq_left hlarge]
    have h1 : c.prob e / w ≤ R := by rw [hR]; exact le_max_of_le_right (le_maxOf hmem)
    rw [← div_le_iff₀ hw0, ← div_le_iff₀ hw0]
    split
    · refine ⟨by linarith, fun _ => ?_⟩
      rw [mul_div_right_comm]
      exact mul_le_mul_of_nonneg_right h1 (zero_le_one.trans hover)
    · rename_i h
      exact ⟨h1.trans (not_lt.1 h), fun h' => absurd h' (lt_irrefl _)⟩

/-- The sampling never raises, if the estimated efficiency is at most one and no more events come out of a batch than were drawn: every pass
asks for a positive number of proposals.  Either the numeric checks are off, or the maximum is not given and no weight is below a
hundred-thousandth of another one (e.g. the default, uniform proposals, all of weight 1): then the checks cannot fail. -/
theorem accept_reject_never_raises (c : Cfg E K) (env : Env E K) (hl : env.Lawful)
    (hc : c.numericChecks = false ∨
      (c.probMax = none ∧ ∃ W, 0 < W ∧ ∀ k m, ∀ w ∈ (env.draw k m).weights, w ≤ W ∧ W / 100000 ≤ w)) (he : c.effInit ≤ 1)
    (hd : ∀ k m, (env.draw k m).sample.length ≤ (env.draw k m).nDrawn) (fuel : ℕ) (e : Err) :
    acceptReject c env fuel ≠ some (.error e) := by
  obtain ⟨P, hP⟩ : ∃ P : St E K → Prop, P = fun s => ∀ W, 0 < W → (∀ k m, ∀ w ∈ (env.draw k m).weights, w ≤ W ∧ W / 100000 ≤ w) →
      s.wMax ≤ W := ⟨_, rfl⟩
  have hbody : ∀ k (s : St E K), s.nProduced < c.n → s.eff ≤ 1 → s.nProduced ≤ s.nDrawn ∧ P s →
      ∃ s', body c env k s = .ok s' ∧ s'.eff ≤ 1 ∧ s'.nProduced ≤ s'.nDrawn ∧ P s' := by
    intro k s hn he ⟨hle, hPs⟩
    obtain ⟨m, hm, -⟩ := nToProduce_ok c s hn he
    unfold body
    rw [hm]
    simp only [except_bind_ok]
    have hcheck : ¬ (c.numericChecks && (((env.draw k m).sample.map c.prob).zip (rescale c env k s (env.draw k m)).1).any
        (fun t => decide (t.2 < t.1))) = true := by
      rcases hc with hc | ⟨hp, W, hW0, hW⟩
      · simp [hc]
      · intro hany
        obtain ⟨t, ht, hlt⟩ := List.any_eq_true.1 (Bool.and_eq_true_iff.1 hany).2
        obtain ⟨j, hj, hget⟩ := List.getElem_of_mem ht
        simp only [rescale, hp] at hj hget
        simp only [List.length_zip, List.length_map] at hj
        simp only [List.getElem_zip, List.getElem_map] at hget
        have h1 : j < (env.draw k m).sample.length := by omega
        have h2 : j < (env.draw k m).weights.length := by omega
        subst hget
        obtain ⟨hwl, hwg⟩ := hW k m _ (List.getElem_mem h2)
        have hw0 : 0 < (env.draw k m).weights[j] := lt_of_lt_of_le (by linarith) hwg
        have hwm : (estimate c s (env.draw k m)).2.1 ≤ W := by
          rw [hP] at hPs
          exact max_le (hPs W hW0 hW) (maxOf_le hW0.le (fun x hx => (hW k m x hx).1))
        have := (accept_reject_envelope c s (env.draw k m)).2.2.2 j _ _ (List.getElem?_eq_getElem h1) (List.getElem?_eq_getElem h2) hw0
          (by linarith)
        simp only [decide_eq_true_eq] at hlt
        linarith
    rw [if_neg hcheck]
    have hPn : ∀ W, 0 < W → (∀ k m, ∀ w ∈ (env.draw k m).weights, w ≤ W ∧ W / 100000 ≤ w) →
        (rescale c env k s (env.draw k m)).2.2.2.1 ≤ W := by
      intro W hW0 hW
      rw [hP] at hPs
      unfold rescale
      split
      · exact hPs W hW0 hW
      · exact max_le (hPs W hW0 hW) (maxOf_le hW0.le (fun x hx => (hW k m x hx).1))
    have hkeep : (rescale c env k s (env.draw k m)).2.1 ≤ s.nProduced := by
      unfold rescale
      split
      · exact le_refl _
      · simp only
        split
        · exact le_refl _
        · exact hl.binom_le _ _ _
    have hacc : (accepted c (env.draw k m) (rescale c env k s (env.draw k m)).1).length ≤ (env.draw k m).sample.length := by
      unfold accepted
      rw [List.length_map]
      refine (List.length_filter_le _ _).trans ?_
      rw [List.length_zip]
      exact Nat.min_le_left _ _
    have hdd := hd k m
    have hN : (rescale c env k s (env.draw k m)).2.1 + (accepted c (env.draw k m) (rescale c env k s (env.draw k m)).1).length
        ≤ s.nDrawn + (env.draw k m).nDrawn := by omega
    refine ⟨_, rfl, ?_, hN, by rw [hP]; exact hPn⟩
    simp only
    rw [div_le_one (lt_max_of_lt_right one_pos)]
    apply max_le
    · exact le_max_of_le_left (by exact_mod_cast hN)
    · exact le_max_of_le_right (by norm_num)
  have hloop : ∀ fuel k (s : St E K), s.eff ≤ 1 → s.nProduced ≤ s.nDrawn ∧ P s → loop c env fuel k s ≠ some (.error e) := by
    intro fuel
    induction fuel with
    | zero =>
      intro k s _ _
      unfold loop
      by_cases hn : c.n ≤ s.nProduced
      · rw [if_pos hn]; simp
      · rw [if_neg hn]; simp
    | succ fuel ih =>
      intro k s he hle
      unfold loop
      by_cases hn : c.n ≤ s.nProduced
      · rw [if_pos hn]; simp
      · rw [if_neg hn]
        obtain ⟨s', hs', h1, h2⟩ := hbody k s (by omega) he hle
        simp only [hs']
        exact ih _ _ h1 h2
  unfold acceptReject
  rcases hr : loop c env fuel 0 (start c) with _ | e' | s
  · simp
  · intro h
    simp only [Option.some.injEq, Except.error.injEq] at h
    subst h
    exact hloop fuel 0 (start c) he ⟨by simp [start], by rw [hP]; intro W hW _; exact hW.le⟩ hr
  · obtain ⟨hi, hn⟩ := loop_inv hl fuel 0 (start c) s ⟨0, by simp [start], by simp [start], by simp⟩ hr
    obtain ⟨r, hr', -⟩ := finish_spec hl hi hn
    simp [hr']

/-- A lawful environment: the `k`-th batch has two proposals, `k` and 5; the probability of `k` is `k + 1`, so that the second pass needs a
new scaling and forgets one of the events already produced. -/
def exEnv : Env ℕ :=
  ⟨fun k _ => ⟨[k, 5], [1 / 2, 9 / 10], [1, 1], some [1, 1], 2⟩, fun _ n _ => n - 1, fun l => l.reverse⟩

/-- Three events to produce. -/
def exCfg : Cfg ℕ := ⟨fun e => e + 1, 3, none, 1 / 2, true, true⟩

example : exEnv.Lawful := ⟨fun _ n _ => Nat.sub_le n 1, fun l => List.reverse_perm l⟩

/-- Its weights are all 1: the numeric checks cannot fail. -/
example : exCfg.numericChecks = true ∧ exCfg.probMax = none ∧ exCfg.effInit ≤ 1
    ∧ ∃ W : ℚ, 0 < W ∧ ∀ k m, ∀ w ∈ (exEnv.draw k m).weights, w ≤ W ∧ W / 100000 ≤ w :=
  ⟨rfl, rfl, by norm_num [exCfg], 1, one_pos, fun k m w hw => by
    have : w = 1 := by simpa [exEnv] using hw
    subst this; norm_num⟩

example : ∃ fuel r, acceptReject exCfg exEnv fuel = some (.ok r) ∧ r = [5, 4, 3] :=
  ⟨10, [5, 4, 3], by decide +kernel, rfl⟩

/-! ## C43 -/

theorem go_sum (n : ℕ) (tot : K) (produced : ℤ) (ps : List (Piece K)) (h : ps ≠ []) : (split.go n tot produced ps).sum = n - produced := by
  induction ps generalizing produced with
  | nil => exact absurd rfl h
  | cons p ps ih =>
    cases ps with
    | nil => simp [split.go]
    | cons q qs =>
      rw [split.go, List.sum_cons, ih _ (by simp)]
      ring

theorem go_length (n : ℕ) (tot : K) (produced : ℤ) (ps : List (Piece K)) : (split.go n tot produced ps).length = ps.length := by
  induction ps generalizing produced with
  | nil => rfl
  | cons p ps ih =>
    cases ps with
    | nil => rfl
    | cons q qs => rw [split.go, List.length_cons, ih]; rfl

theorem go_nonneg (n : ℕ) (tot : K) (ht : 0 < tot) (produced : ℤ) (ps : List (Piece K)) (hv : ∀ p ∈ ps, 0 ≤ p.volume)
    (hp : (produced : K) + n * ((ps.map Piece.volume).sum / tot) ≤ n) : ∀ k ∈ split.go n tot produced ps, 0 ≤ k := by
  induction ps generalizing produced with
  | nil => simp [split.go]
  | cons p ps ih =>
    have hn0 : (0 : K) ≤ n := Nat.cast_nonneg n
    have hvp : (0 : K) ≤ p.volume / tot := div_nonneg (hv p List.mem_cons_self) ht.le
    cases ps with
    | nil =>
      simp only [split.go, List.mem_singleton, forall_eq]
      simp only [List.map_cons, List.map_nil, List.sum_cons, List.sum_nil, add_zero] at hp
      have : (produced : K) ≤ n := by nlinarith
      have : produced ≤ n := by exact_mod_cast this
      omega
    | cons q qs =>
      rw [split.go]
      intro k hk
      rcases List.mem_cons.1 hk with rfl | hk
      · exact Int.floor_nonneg.2 (mul_nonneg hn0 hvp)
      · refine ih _ (fun x hx => hv x (List.mem_cons_of_mem _ hx)) ?_ k hk
        have hfl := Int.floor_le ((n : K) * (p.volume / tot))
        have hadd : ((p :: q :: qs).map Piece.volume).sum / tot = p.volume / tot + ((q :: qs).map Piece.volume).sum / tot := by
          rw [List.map_cons, List.sum_cons, add_div]
        rw [hadd, mul_add] at hp
        push_cast
        linarith

/-- The numbers of proposals: as many as there are pieces, none negative, they add up to `n`. -/
theorem uniform_split (n : ℕ) (pieces : List (Piece K)) (h : pieces ≠ []) (hv : ∀ p ∈ pieces, 0 < p.volume) :
    (split n pieces).length = pieces.length ∧ (∀ k ∈ split n pieces, 0 ≤ k) ∧ (split n pieces).sum = n := by
  unfold split
  refine ⟨go_length _ _ _ _, ?_, by rw [go_sum _ _ _ _ h]; ring⟩
  have hpos : 0 < (pieces.map Piece.volume).sum := by
    obtain ⟨p, ps, rfl⟩ := List.exists_cons_of_ne_nil h
    rw [List.map_cons, List.sum_cons]
    have : 0 ≤ (ps.map Piece.volume).sum := List.sum_nonneg (by
      intro x hx
      obtain ⟨q, hq, rfl⟩ := List.mem_map.1 hx
      exact (hv q (List.mem_cons_of_mem _ hq)).le)
    have := hv p List.mem_cons_self
    linarith
  apply go_nonneg n _ hpos 0 pieces (fun p hp => (hv p hp).le)
  rw [div_self hpos.ne']
  push_cast
  linarith

/-- A point inside a piece. -/
def Piece.contains (p : Piece K) (x : List K) : Prop :=
  x.length = p.lower.length ∧ x.length = p.upper.length ∧ ∀ (i : ℕ) (a l u : K), x[i]? = some a → p.lower[i]? = some l → p.upper[i]? = some u → l ≤ a ∧ a < u

theorem toPiece_contains (p : Piece K) (u : List K) (h : p.lower.length = p.upper.length) (hu : u.length = p.lower.length)
    (hlu : ∀ (i : ℕ) (l u : K), p.lower[i]? = some l → p.upper[i]? = some u → l < u) (hr : ∀ x ∈ u, 0 ≤ x ∧ x < 1) :
    p.contains (toPiece p u) := by
  have hlen : (toPiece p u).length = p.lower.length := by simp [toPiece]; omega
  refine ⟨hlen, by omega, fun i a l w ha hl hw => ?_⟩
  obtain ⟨hi, rfl⟩ := List.getElem?_eq_some_iff.1 ha
  obtain ⟨hi', rfl⟩ := List.getElem?_eq_some_iff.1 hl
  obtain ⟨hi'', rfl⟩ := List.getElem?_eq_some_iff.1 hw
  have hui : i < u.length := by omega
  have hlt := hlu i _ _ hl hw
  obtain ⟨h0, h1⟩ := hr u[i] (List.getElem_mem hui)
  simp only [toPiece, List.getElem_zipWith, List.getElem_zip]
  have hd : (0 : K) < p.upper[i] - p.lower[i] := by linarith
  constructor
  · nlinarith
  · nlinarith

/-- The uniform proposals over several pieces: exactly `n` with `n` thresholds; they come in blocks, one for each piece, the `i`-th block having
`(split n pieces)[i]` proposals, all inside of the `i`-th piece. -/
theorem uniform_sample_exact (n : ℕ) (pieces : List (Piece K)) (uniform : ℕ → ℕ → List K × K) (h : pieces ≠ [])
    (hv : ∀ p ∈ pieces, 0 < p.volume) (hp : ∀ p ∈ pieces, p.lower.length = p.upper.length)
    (hlu : ∀ p ∈ pieces, ∀ (i : ℕ) (l u : K), p.lower[i]? = some l → p.upper[i]? = some u → l < u)
    (hu : ∀ i j, ∀ p ∈ pieces, (uniform i j).1.length = p.lower.length) (hr : ∀ i j, ∀ x ∈ (uniform i j).1, 0 ≤ x ∧ x < 1) :
    (uniformSample n pieces uniform).1.length = n ∧ (uniformSample n pieces uniform).2.length = n
      ∧ ∃ blocks : List (List (List K)), (uniformSample n pieces uniform).1 = blocks.flatten
        ∧ blocks.map (fun b => (b.length : ℤ)) = split n pieces
        ∧ List.Forall₂ (fun (p : Piece K) b => ∀ x ∈ b, p.contains x) pieces blocks := by
  obtain ⟨hlen, hnn, hsum⟩ := uniform_split n pieces h hv
  obtain ⟨B, hB⟩ : ∃ B, B = (pieces.zip (split n pieces)).zipIdx.map
    (fun t => (List.range t.1.2.toNat).map (fun j => (toPiece t.1.1 (uniform t.2 j).1, (uniform t.2 j).2))) := ⟨_, rfl⟩
  have hBl : B.length = pieces.length := by simp [hB]; omega
  have hblen : B.map (fun b => (b.length : ℤ)) = split n pieces := by
    apply List.ext_getElem
    · simp; omega
    · intro i h1 h2
      have := hnn _ (List.getElem_mem h2)
      simp only [hB, List.map_map, List.getElem_map, List.getElem_zipIdx, List.getElem_zip, Function.comp, List.length_map,
        List.length_range]
      omega
  have htot : (B.flatten.length : ℤ) = n := by
    rw [← hsum, ← hblen, List.length_flatten]
    clear * -
    induction B with
    | nil => rfl
    | cons b bs ih => simp only [List.map_cons, List.sum_cons]; push_cast; rw [ih]
  have htot' : B.flatten.length = n := by exact_mod_cast htot
  refine ⟨by simp only [uniformSample, ← hB, List.length_map, htot'], by simp only [uniformSample, ← hB, List.length_map, htot'], B.map (fun b => b.map (·.1)), ?_, ?_, ?_⟩
  · simp [uniformSample, ← hB, List.map_flatten]
  · rw [List.map_map, ← hblen]
    apply List.map_congr_left
    intro b _
    simp
  · rw [List.forall₂_iff_get]
    refine ⟨by simp [hBl], fun i h1 h2 => ?_⟩
    intro x hx
    simp only [hB, List.get_eq_getElem, List.getElem_map, List.getElem_zipIdx, List.getElem_zip, List.map_map, List.mem_map,
      Function.comp] at hx
    obtain ⟨j, -, rfl⟩ := hx
    have hmem : pieces[i] ∈ pieces := List.getElem_mem h1
    exact toPiece_contains _ _ (hp _ hmem) (hu _ _ _ hmem) (hlu _ hmem) (hr _ _)

/-- Ten proposals over pieces of volume 1, 1 and 2: 2, 2 and 6. -/
example : split 10 ([⟨[0], [1]⟩, ⟨[2], [3]⟩, ⟨[5], [7]⟩] : List Piece) = [2, 2, 6] := by decide +kernel

/-- A model that can sample a single limit, and gives there the requested number of events, gives exactly `n` events over several limits:
each piece contributes its own block of events inside of it. -/
theorem limits_sample_exact {L : Type} (callAll : ℕ → Except Err (List E)) (callOne : L → ℕ → Except Err (List E)) (is : List K)
    (counts : List K → List ℕ) (n : ℕ) (limits : List L) (inside : L → E → Prop) (r : List E)
    (hall : callAll n = .error .multipleLimitsNotImplemented)
    (hcounts : (counts (is.map (· / is.sum))).length = limits.length ∧ (counts (is.map (· / is.sum))).sum = n)
    (hone : ∀ l ∈ limits, ∀ m s, callOne l m = .ok s → s.length = m ∧ ∀ e ∈ s, inside l e)
    (h : limitsSample callAll callOne (.ok is) counts n limits = .ok r) :
    r.length = n ∧ ∃ blocks : List (List E), r = blocks.flatten ∧ blocks.map List.length = counts (is.map (· / is.sum))
      ∧ List.Forall₂ (fun l b => ∀ e ∈ b, inside l e) limits blocks := by
  unfold limitsSample at h
  rw [hall] at h
  simp only at h
  obtain ⟨S, hS, h⟩ := bind_eq_ok.1 h
  cases h
  rw [mapM_ok_iff] at hS
  generalize counts (is.map (· / is.sum)) = cs at hcounts hS
  obtain ⟨hl, hs⟩ := hcounts
  have hSl : S.length = limits.length := by
    have := congrArg List.length hS
    simp at this; omega
  have hget : ∀ i (h1 : i < limits.length) (h2 : i < cs.length) (h3 : i < S.length), callOne limits[i] cs[i] = .ok S[i] := by
    intro i h1 h2 h3
    have h4 : i < (List.map (fun t => callOne t.1 t.2) (limits.zip cs)).length := by simp; omega
    have := List.getElem_of_eq hS h4
    simpa using this
  have hlens : S.map List.length = cs := by
    apply List.ext_getElem
    · simp; omega
    · intro i h1 h2
      rw [List.getElem_map]
      have h3 : i < limits.length := by omega
      exact (hone _ (List.getElem_mem h3) _ _ (hget i h3 h2 (by omega))).1
  refine ⟨by rw [List.length_flatten, hlens, hs], S, rfl, hlens, ?_⟩
  rw [List.forall₂_iff_get]
  refine ⟨hSl.symm, fun i h1 h2 => ?_⟩
  exact (hone _ (List.getElem_mem h1) _ _ (hget i h1 (by omega) h2)).2

/-- Without an analytic integral several limits are not possible; any other problem comes through. -/
theorem limits_sample_errors {L : Type} (callAll : ℕ → Except Err (List E)) (callOne : L → ℕ → Except Err (List E))
    (counts : List K → List ℕ) (n : ℕ) (limits : List L) :
    (callAll n = .error .multipleLimitsNotImplemented →
      limitsSample callAll callOne (.error .analyticNotImplemented) counts n limits = .error .multipleLimitsNotImplemented)
    ∧ (∀ e is, e ≠ .multipleLimitsNotImplemented → callAll n = .error e → limitsSample callAll callOne is counts n limits = .error e)
    ∧ (∀ r is, callAll n = .ok r → limitsSample callAll callOne is counts n limits = .ok r) := by
  refine ⟨fun h => by simp [limitsSample, h], fun e is he h => ?_, fun r is h => by simp [limitsSample, h]⟩
  unfold limitsSample
  rw [h]
  cases e <;> first | rfl | exact absurd rfl he

example : limitsSample (fun _ => .error .multipleLimitsNotImplemented) (fun (l : ℕ) m => .ok (List.replicate m l))
    (.ok [(1 : ℚ), 3]) (fun _ => [1, 2]) 3 [10, 20] = .ok [10, 20, 20] := by decide +kernel

end Zfit.Sample
