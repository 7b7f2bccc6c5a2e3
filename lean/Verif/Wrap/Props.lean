import Verif.Wrap.Lemmas
import Mathlib.Tactic.Ring
import Verif.Common.Except

/-!
# What a wrapped minimiser reports (C96, C98, C99)

`Honest`: the library returns the value of the loss at the point it returns, and the criterion is a function of the point.
-/

namespace Zfit.Wrap
variable {X K : Type} [Field K] [LinearOrder K]

/-- The criterion value `c` is a number smaller than `goal`. -/
def Smaller (c : Option K) (goal : K) : Prop := ∃ a, c = some a ∧ a < goal

theorem below_iff (c : Option K) (goal : K) : below c goal = true ↔ Smaller c goal := by
  cases c <;> simp [below, Smaller]

/-- The library returns the loss `f` at the point it returns, and the criterion is `g`. -/
structure Setup.Honest (s : Setup X K) (f : X → K) (g : X → Option K) : Prop where
  value : ∀ i x y v, s.run i x = .done y v → v = f y
  crit : ∀ i x, s.crit i x = g x

/-! ## C96: valid results meet the criterion, within the budget, after at most 20 runs -/

/-- C96 (Scipy): the result comes from one of the first 20 runs; it is valid exactly if the criterion value it reports is smaller than
`tol * errordef`, the number of evaluations is within `maxiter` and the fit was not declared stuck. -/
theorem scipy_valid (s : Scipy X K) (tol errordef : K) (hg : s.goal = critGoal tol errordef) (r : Report X K) (h : scipy s = .ok r) :
    ∃ j < 20, ∃ x0 x v, s.run j x0 = .done x v ∧ r.fmin = some v ∧ r.edm = s.crit j x ∧
      (r.valid = true ↔ Smaller r.edm (tol * errordef) ∧ s.over j = false ∧ r.message ≠ .stuck) := by
  obtain ⟨j, hj, x0, x, v, h1, h2, h3, _, h5⟩ := scipyLoop_spec s 20 0 _ r h (Nat.zero_le _) (by simp)
  exact ⟨j, by omega, x0, x, v, h1, h2, h3, by rw [h5, below_iff, hg]; rfl⟩

/-- C96 (NLopt). -/
theorem nlopt_valid (s : Nlopt X K) (tol errordef : K) (hg : s.goal = critGoal tol errordef) (r : Report X K) (h : nlopt s = .ok r) :
    ∃ j < 20, r.fmin = some (s.lastValue j) ∧ r.edm = s.crit j r.values ∧
      (r.valid = true ↔ Smaller r.edm (tol * errordef) ∧ (1 ≤ s.status j ∧ s.status j ≤ 4) ∧ s.over j = false) := by
  obtain ⟨j, hj, h1, h2, _, _, h5⟩ := nloptLoop_spec s s.start 20 0 _ r h (Or.inl rfl) (by simp)
  exact ⟨j, by omega, h1, h2, by rw [h5, below_iff, hg, and_assoc]; rfl⟩

/-- C96 (Ipyopt). -/
theorem ipopt_valid (s : Setup X K) (tol errordef : K) (hg : s.goal = critGoal tol errordef) (r : Report X K) (h : ipopt s = .ok r) :
    ∃ j < 20, r.edm = s.crit j r.values ∧
      (r.valid = true ↔ Smaller r.edm (tol * errordef) ∧ s.over j = false ∧ r.message ≠ .maxiter) := by
  obtain ⟨j, hj, h1, _, h3⟩ := ipoptLoop_spec s s.start 20 0 _ r h (by omega) ⟨rfl, rfl⟩ (Or.inl ⟨rfl, rfl, rfl⟩) (by simp)
  exact ⟨j, by omega, h1, by rw [h3, below_iff, hg]; rfl⟩

theorem scipyLoop_calls (s : Scipy X K) (run : ℕ → X → Run X K) (crit : ℕ → X → Option K) (over : ℕ → Bool) (displace : ℕ → X → X)
    (h1 : ∀ i < 20, run i = s.run i) (h2 : ∀ i < 20, crit i = s.crit i) (h3 : ∀ i < 20, over i = s.over i)
    (h4 : ∀ k < 5, displace k = s.displace k) : ∀ (fuel i : ℕ) (st : ScipySt X K), i + fuel ≤ 20 → st.nrandom ≤ 5 →
    scipyLoop { s with run := run, crit := crit, over := over, displace := displace } fuel i st = scipyLoop s fuel i st := by
  intro fuel
  induction fuel with
  | zero => intro i st _ _; rfl
  | succ n ih =>
    intro i st hi hn
    have ht : scipyTurn { s with run := run, crit := crit, over := over, displace := displace } i st = scipyTurn s i st := by
      unfold scipyTurn
      dsimp only
      simp only [h1 i (by omega), h2 i (by omega), h3 i (by omega)]
      cases s.run i st.init with
      | budget => rfl
      | runtime => rfl
      | failed e => rfl
      | done x v =>
        dsimp only
        by_cases h5 : st.nrandom < 5
        · simp only [h4 _ h5]
        · by_cases hc : isClose st.old (s.crit i x) = true
          · have : decide (5 ≤ st.nrandom) = true := decide_eq_true (by omega)
            simp only [hc, this, Bool.and_self, if_true]
          · simp only [hc, Bool.false_and, Bool.false_eq_true, if_false]
    unfold scipyLoop
    rw [ht]
    cases ho : scipyTurn s i st with
    | error e => rfl
    | ok o =>
      cases o with
      | inr r => rfl
      | inl st' =>
        obtain ⟨_, _, _, hs⟩ := scipyTurn_spec s i st _ ho
        exact ih (i + 1) st' (by omega) (hs.2.2.2.1 hn)

/-- C96 (Scipy): at most 20 runs are looked at and at most 5 random displacements are made; whatever the 21st run or the 6th displacement
would do makes no difference. -/
theorem scipy_calls (s : Scipy X K) (run : ℕ → X → Run X K) (crit : ℕ → X → Option K) (over : ℕ → Bool) (displace : ℕ → X → X)
    (h1 : ∀ i < 20, run i = s.run i) (h2 : ∀ i < 20, crit i = s.crit i) (h3 : ∀ i < 20, over i = s.over i)
    (h4 : ∀ k < 5, displace k = s.displace k) :
    scipy { s with run := run, crit := crit, over := over, displace := displace } = scipy s :=
  scipyLoop_calls s run crit over displace h1 h2 h3 h4 20 0 _ (by omega) (by simp)

section
variable [IsStrictOrderedRing K]

theorem isClose_self (c : K) : isClose (some c) (some c) = true := by
  simp only [isClose, sub_self, abs_zero, decide_eq_true_eq]
  exact le_max_of_le_right (by norm_num)

theorem isClose_start (c : K) (hc : 0 ≤ c) : isClose (some (-1)) (some c) = false := by
  simp only [isClose, decide_eq_false_iff_not, not_le]
  have h1 : |(-1 : K) - c| = 1 + c := by rw [abs_of_nonpos (by linarith)]; ring
  rw [h1, abs_neg, abs_of_nonneg (zero_le_one (α := K)), abs_of_nonneg hc]
  refine max_lt ?_ ?_
  · have : max 1 c ≤ 1 + c := max_le (by linarith) (by linarith)
    linarith
  · linarith [show (1 : K) / 1000000000000 < 1 by norm_num]

/-- One turn of a fit that does not advance: it is displaced, and that is counted. -/
theorem scipyLoop_close (s : Scipy X K) (c : K) (hc : s.goal ≤ c) (y : ℕ → X → X) (v : ℕ → X → K) (hr : ∀ i x, s.run i x = .done (y i x) (v i x))
    (hcrit : ∀ i x, s.crit i x = some c) (ho : ∀ i, s.over i = false) (hl : ∀ x, s.atLimit x = false) (fuel i n : ℕ) (hn : n < 5) (x : X)
    (last : Option (K × Option K)) :
    ∃ x' last', scipyLoop s (fuel + 1) i ⟨x, n, some c, 0, last⟩ = scipyLoop s fuel (i + 1) ⟨x', n + 1, some c, 0, last'⟩ := by
  refine ⟨s.displace n (y i x), some (v i x, some c), ?_⟩
  have h5 : decide (5 ≤ n) = false := decide_eq_false (by omega)
  have hb : below (some c) s.goal = false := by simp [below, hc]
  simp only [scipyLoop, scipyTurn, hr, hcrit, hl, isClose_self, h5, hb, ho, Bool.and_false, Bool.false_eq_true, if_false, if_true,
    Bool.or_false, Nat.not_lt_zero]

/-- C96 (Scipy): a fit that does not advance, however it is displaced, is given up as stuck after the fifth displacement, not valid. -/
theorem scipy_stuck (s : Scipy X K) (c : K) (h0 : 0 ≤ c) (hc : s.goal ≤ c) (y : ℕ → X → X) (v : ℕ → X → K)
    (hr : ∀ i x, s.run i x = .done (y i x) (v i x)) (hcrit : ∀ i x, s.crit i x = some c) (ho : ∀ i, s.over i = false)
    (hl : ∀ x, s.atLimit x = false) : ∃ r, scipy s = .ok r ∧ r.message = .stuck ∧ r.valid = false ∧ r.edm = some c := by
  have hb : below (some c) s.goal = false := by simp [below, hc]
  have first : scipy s = scipyLoop s 19 1 ⟨y 0 s.start, 0, some c, 0, some (v 0 s.start, some c)⟩ := by
    show scipyLoop s (19 + 1) 0 _ = _
    simp only [scipyLoop, scipyTurn, hr, hcrit, hl, isClose_start c h0, hb, ho, Bool.false_and, Bool.false_eq_true, if_false, Bool.or_false,
      Nat.not_lt_zero]
  obtain ⟨x1, l1, e1⟩ := scipyLoop_close s c hc y v hr hcrit ho hl 18 1 0 (by omega) (y 0 s.start) (some (v 0 s.start, some c))
  obtain ⟨x2, l2, e2⟩ := scipyLoop_close s c hc y v hr hcrit ho hl 17 2 1 (by omega) x1 l1
  obtain ⟨x3, l3, e3⟩ := scipyLoop_close s c hc y v hr hcrit ho hl 16 3 2 (by omega) x2 l2
  obtain ⟨x4, l4, e4⟩ := scipyLoop_close s c hc y v hr hcrit ho hl 15 4 3 (by omega) x3 l3
  obtain ⟨x5, l5, e5⟩ := scipyLoop_close s c hc y v hr hcrit ho hl 14 5 4 (by omega) x4 l4
  refine ⟨⟨y 6 x5, some (v 6 x5), some c, false, .stuck⟩, ?_, rfl, rfl, rfl⟩
  rw [first, e1, e2, e3, e4, e5]
  have h5 : decide (5 ≤ 5) = true := by decide
  simp only [scipyLoop, scipyTurn, hr, hcrit, isClose_self, h5, Bool.and_self, if_true]

end

theorem nloptLoop_calls (s : Nlopt X K) (run : ℕ → X → Run X K) (h1 : ∀ i < 20, run i = s.run i) : ∀ (fuel i : ℕ) (st : NloptSt X K),
    i + fuel ≤ 20 → nloptLoop { s with run := run } fuel i st = nloptLoop s fuel i st := by
  intro fuel
  induction fuel with
  | zero => intro i st _; rfl
  | succ n ih =>
    intro i st hi
    have ht : nloptTurn { s with run := run } i st = nloptTurn s i st := by
      unfold nloptTurn nloptCall
      dsimp only
      rw [h1 i (by omega)]
      rfl
    unfold nloptLoop
    rw [ht]
    cases nloptTurn s i st with
    | error e => rfl
    | ok o => cases o with
      | inr r => rfl
      | inl st' => exact ih (i + 1) st' (by omega)

/-- C96 (NLopt): at most 20 runs. -/
theorem nlopt_calls (s : Nlopt X K) (run : ℕ → X → Run X K) (h : ∀ i < 20, run i = s.run i) : nlopt { s with run := run } = nlopt s :=
  nloptLoop_calls s run h 20 0 _ (by omega)

theorem ipoptLoop_calls (s : Setup X K) (run : ℕ → X → Run X K) (h1 : ∀ i < 20, run i = s.run i) : ∀ (fuel i : ℕ) (st : IpoptSt X K),
    i + fuel ≤ 20 → ipoptLoop { s with run := run } fuel i st = ipoptLoop s fuel i st := by
  intro fuel
  induction fuel with
  | zero => intro i st _; rfl
  | succ n ih =>
    intro i st hi
    have ht : ipoptTurn { s with run := run } i st = ipoptTurn s i st := by
      unfold ipoptTurn ipoptCall
      dsimp only
      rw [h1 i (by omega)]
      rfl
    unfold ipoptLoop
    rw [ht]
    cases ipoptTurn s i st with
    | error e => rfl
    | ok o => cases o with
      | inr r => rfl
      | inl st' => exact ih (i + 1) st' (by omega)

/-- C96 (Ipyopt): at most 20 runs. -/
theorem ipopt_calls (s : Setup X K) (run : ℕ → X → Run X K) (h : ∀ i < 20, run i = s.run i) : ipopt { s with run := run } = ipopt s :=
  ipoptLoop_calls s run h 20 0 _ (by omega)

/-! A loss `x ^ 2 / 1000` (its own distance to the minimum) with tolerance 1/1000: the first run stops at 1, the next ones at 0.99998; a
random displacement moves the point by 1/50, a fifth of the default step size. -/

/-- The loss of the examples. -/
def exLoss (x : ℚ) : ℚ := x * x / 1000

def exSetup : Setup ℚ ℚ :=
  ⟨1, fun i x => if i = 0 then .done x (exLoss x) else .done (99998 / 100000) (exLoss (99998 / 100000)), fun _ x => some (exLoss x), fun _ => false,
    critGoal (1 / 1000) 1⟩

def exScipy : Scipy ℚ ℚ := { exSetup with atLimit := fun _ => false, displace := fun _ x => x + 1 / 50 }
def exNlopt : Nlopt ℚ ℚ := { exSetup with lastValue := fun i => if i = 0 then exLoss 1 else exLoss (99998 / 100000), status := fun _ => 3,
                                          restart := fun _ x => x }

example : exSetup.Honest exLoss (fun x => some (exLoss x)) :=
  ⟨fun i x y v h => by
    unfold exSetup at h
    dsimp only at h
    split_ifs at h <;> simp only [Run.done.injEq] at h <;> rw [← h.1, ← h.2], fun _ _ => rfl⟩
example : (scipy exScipy).toOption.map (·.valid) = some true ∧ (nlopt exNlopt).toOption.map (·.valid) = some true ∧
    (ipopt exSetup).toOption.map (·.valid) = some true := by decide +kernel

/-! ## C98: the reported point, value and criterion belong together -/

/-- C98 (Ipyopt): the value and the criterion of the result are those of the point of the result; there is no value if already the first
run exceeded the budget. -/
theorem ipopt_together (s : Setup X K) (f : X → K) (g : X → Option K) (hs : s.Honest f g) (r : Report X K) (h : ipopt s = .ok r) :
    r.edm = g r.values ∧ (r.fmin = some (f r.values) ∨ r.fmin = none ∧ r.values = s.start ∧ r.valid = false) := by
  obtain ⟨j, _, h1, h2, h3⟩ := ipoptLoop_spec s s.start 20 0 _ r h (by omega) ⟨rfl, rfl⟩ (Or.inl ⟨rfl, rfl, rfl⟩) (by simp)
  refine ⟨by rw [h1, hs.crit], ?_⟩
  rcases h2 with ⟨hx, hf, hm⟩ | ⟨j', _, x0, v, hr, hf⟩
  · refine Or.inr ⟨hf, hx, ?_⟩
    cases hv : r.valid with
    | false => rfl
    | true => exact absurd hm (h3.1 hv).2.2
  · exact Or.inl (by rw [hf, hs.value _ _ _ _ hr])

/-- C98 (NLopt), the part that holds: the criterion is that of the reported point; the value is that of the reported point if the result is
valid, for a library that reports success only for runs that returned a point. Missing from the full claim: the cases of
`scipy_together_violated`, `nlopt_together_violated`. -/
theorem nlopt_together_partial (s : Nlopt X K) (f : X → K) (g : X → Option K) (hs : s.Honest f g)
    (hl : ∀ i x y v, s.run i x = .done y v → s.lastValue i = v)
    (hst : ∀ i x, 1 ≤ s.status i → s.status i ≤ 4 → ∃ y v, s.run i x = .done y v) (r : Report X K) (h : nlopt s = .ok r) :
    r.edm = g r.values ∧ (r.valid = true → r.fmin = some (f r.values)) := by
  obtain ⟨j, _, h1, h2, _, ⟨x0, hx0⟩, h5⟩ := nloptLoop_spec s s.start 20 0 _ r h (Or.inl rfl) (by simp)
  refine ⟨by rw [h2, hs.crit], fun hv => ?_⟩
  obtain ⟨_, ha, hb, _⟩ := h5.1 hv
  obtain ⟨y, v, hr⟩ := hst j x0 ha hb
  rw [h1, hl j x0 y v hr, hs.value j x0 y v hr, hx0 y v hr]

/-- C98 (Scipy), the part that holds: value and criterion are those of one point `x`; the reported point is `x` or a random displacement
of it. Without displacements it is `x`. Missing from the full claim: the cases of `scipy_together_violated`, `nlopt_together_violated`. -/
theorem scipy_together_partial (s : Scipy X K) (f : X → K) (g : X → Option K) (hs : s.Honest f g) (r : Report X K) (h : scipy s = .ok r) :
    ∃ x, r.fmin = some (f x) ∧ r.edm = g x ∧ (r.values = x ∨ ∃ k < 5, r.values = s.displace k x) ∧
      ((∀ k < 5, s.displace k x = x) → r.fmin = some (f r.values) ∧ r.edm = g r.values) := by
  obtain ⟨j, _, x0, x, v, h1, h2, h3, h4, _⟩ := scipyLoop_spec s 20 0 _ r h (Nat.zero_le _) (by simp)
  rw [hs.value j x0 x v h1] at h2
  rw [hs.crit] at h3
  refine ⟨x, h2, h3, h4, fun hd => ?_⟩
  have : r.values = x := by
    rcases h4 with e | ⟨k, hk, e⟩
    · exact e
    · rw [e, hd k hk]
  rw [this]
  exact ⟨h2, h3⟩

/-- C98 fails for Scipy: the last point is displaced in place after its criterion was computed, also if it is the final one. The result
is valid, but neither its value nor its criterion is that of its point, whose criterion does not even meet the tolerance. -/
theorem scipy_together_violated : ∃ r, scipy exScipy = .ok r ∧ r.valid = true ∧ r.fmin ≠ some (exLoss r.values) ∧
    r.edm ≠ some (exLoss r.values) ∧ ¬ exLoss r.values < 1 / 1000 * 1 :=
  ⟨⟨99998 / 100000 + 1 / 50, some (exLoss (99998 / 100000)), some (exLoss (99998 / 100000)), true, .none⟩, by decide +kernel⟩

/-- A library that fails in every run after having seen the value 1/2. -/
def exFailing : Nlopt ℚ ℚ := { exSetup with run := fun _ _ => .runtime, goal := 1 / 2000, lastValue := fun _ => 1 / 2000, status := fun _ => -1,
                                            restart := fun _ _ => 0 }

/-- C98 fails for NLopt if the last run failed: the value is the one of the failed run, the point that of an earlier one. -/
theorem nlopt_together_violated : ∃ r, nlopt exFailing = .ok r ∧ r.values = 1 ∧ r.fmin = some (1 / 2000) ∧ exLoss 1 = 1 / 1000 :=
  ⟨⟨1, some (1 / 2000), some (1 / 1000), false, .notReached⟩, by decide +kernel⟩

/-! ## C99: the reported point stays inside the limits and is not worse than the starting point -/

/-- C99 (Scipy), the part that holds: what the library and the displacements keep holds of the reported point. Missing from the full claim:
the cases of `scipy_inside_violated`. -/
theorem scipy_keeps_partial (s : Scipy X K) (P : X → Prop) (h0 : P s.start) (hrun : ∀ i x y v, P x → s.run i x = .done y v → P y)
    (hd : ∀ k < 5, ∀ x, P x → P (s.displace k x)) (r : Report X K) (h : scipy s = .ok r) : P r.values :=
  scipyLoop_invariant s P hrun hd 20 0 _ r h0 h

theorem nloptLoop_invariant (s : Nlopt X K) (P : X → Prop) (hrun : ∀ i x y v, P x → s.run i x = .done y v → P y) :
    ∀ (fuel i : ℕ) (st : NloptSt X K) (r : Report X K), P st.x → nloptLoop s fuel i st = .ok r → P r.values := by
  intro fuel
  induction fuel with
  | zero =>
    intro i st r hp h
    unfold nloptLoop at h
    cases hst : st.last with
    | none => rw [hst] at h; simp at h
    | some p => rw [hst] at h; rw [(fromNlopt_spec s _ _ _ _ _ r h).1]; exact hp
  | succ n ih =>
    intro i st r hp h
    unfold nloptLoop at h
    cases ht : nloptTurn s i st with
    | error e => rw [ht] at h; simp at h
    | ok o =>
      rw [ht] at h
      obtain ⟨x, y, k, b, m, hc, ho⟩ := nloptTurn_spec s i st o ht
      have hx : P x := by
        rcases nloptCall_spec s i st x y k b m hc with ⟨v, hv⟩ | ⟨rfl, -⟩
        · exact hrun i _ _ _ hp hv
        · exact hp
      cases o with
      | inr q => simp only [Except.ok.injEq] at h; subst h; rw [(fromNlopt_spec s _ _ _ _ _ q ho).1]; exact hx
      | inl st' => obtain ⟨rfl, -⟩ := ho; exact ih (i + 1) _ r hx h

/-- C99 (NLopt): what the library keeps holds of the reported point. -/
theorem nlopt_keeps (s : Nlopt X K) (P : X → Prop) (h0 : P s.start) (hrun : ∀ i x y v, P x → s.run i x = .done y v → P y)
    (r : Report X K) (h : nlopt s = .ok r) : P r.values := nloptLoop_invariant s P hrun 20 0 _ r h0 h

theorem ipoptLoop_invariant (s : Setup X K) (P : X → Prop) (hrun : ∀ i x y v, P x → s.run i x = .done y v → P y) :
    ∀ (fuel i : ℕ) (st : IpoptSt X K) (r : Report X K), P st.x → st.valid = true ∧ st.message = .none → ipoptLoop s fuel i st = .ok r →
      P r.values := by
  intro fuel
  induction fuel with
  | zero =>
    intro i st r hp _ h
    unfold ipoptLoop at h
    simp only [Except.ok.injEq] at h
    subst h
    exact hp
  | succ n ih =>
    intro i st r hp hv h
    unfold ipoptLoop at h
    cases ht : ipoptTurn s i st with
    | error e => rw [ht] at h; simp at h
    | ok o =>
      rw [ht] at h
      obtain ⟨x, f, hxf, ho⟩ := ipoptTurn_spec s i st o ht hv
      have hx : P x := by
        rcases hxf with ⟨v, hv', -⟩ | ⟨-, rfl, -⟩
        · exact hrun i _ _ _ hp hv'
        · exact hp
      cases o with
      | inr q => simp only [Except.ok.injEq] at h; subst h; rw [ho.1]; exact hx
      | inl st' => exact ih (i + 1) st' r (by rw [ho.1]; exact hx) ⟨ho.2.2.2.1, ho.2.2.2.2.1⟩ h

/-- C99 (Ipyopt): what the library keeps holds of the reported point. -/
theorem ipopt_keeps (s : Setup X K) (P : X → Prop) (h0 : P s.start) (hrun : ∀ i x y v, P x → s.run i x = .done y v → P y)
    (r : Report X K) (h : ipopt s = .ok r) : P r.values := ipoptLoop_invariant s P hrun 20 0 _ r h0 ⟨rfl, rfl⟩ h

/-- A library for the limits `lower`, `upper` that never goes uphill. -/
structure Setup.Proper (s : Setup X K) [LE X] (f : X → K) (lower upper : X) : Prop where
  start : lower ≤ s.start ∧ s.start ≤ upper
  limits : ∀ i x y v, lower ≤ x ∧ x ≤ upper → s.run i x = .done y v → lower ≤ y ∧ y ≤ upper
  descends : ∀ i x y v, s.run i x = .done y v → f y ≤ f x

/-- C99 (NLopt), in terms of limits and loss. -/
theorem nlopt_inside [LE X] (s : Nlopt X K) (f : X → K) (lower upper : X) (hs : s.Proper f lower upper) (r : Report X K) (h : nlopt s = .ok r) :
    (lower ≤ r.values ∧ r.values ≤ upper) ∧ f r.values ≤ f s.start :=
  ⟨nlopt_keeps s _ hs.start hs.limits r h,
    nlopt_keeps s (fun x => f x ≤ f s.start) le_rfl (fun i x y v hx hr => (hs.descends i x y v hr).trans hx) r h⟩

/-- C99 (Ipyopt), in terms of limits and loss. -/
theorem ipopt_inside [LE X] (s : Setup X K) (f : X → K) (lower upper : X) (hs : s.Proper f lower upper) (r : Report X K) (h : ipopt s = .ok r) :
    (lower ≤ r.values ∧ r.values ≤ upper) ∧ f r.values ≤ f s.start :=
  ⟨ipopt_keeps s _ hs.start hs.limits r h,
    ipopt_keeps s (fun x => f x ≤ f s.start) le_rfl (fun i x y v hx hr => (hs.descends i x y v hr).trans hx) r h⟩

/-- C99 (Scipy), the part that holds: without displacements. Missing from the full claim: the cases of `scipy_inside_violated`. -/
theorem scipy_inside_partial [LE X] (s : Scipy X K) (f : X → K) (lower upper : X) (hs : s.Proper f lower upper) (hd : ∀ k < 5, ∀ x, s.displace k x = x)
    (r : Report X K) (h : scipy s = .ok r) : (lower ≤ r.values ∧ r.values ≤ upper) ∧ f r.values ≤ f s.start :=
  ⟨scipy_keeps_partial s _ hs.start hs.limits (fun k hk x hx => by rw [hd k hk x]; exact hx) r h,
    scipy_keeps_partial s (fun x => f x ≤ f s.start) le_rfl (fun i x y v hx hr => (hs.descends i x y v hr).trans hx)
      (fun k hk x hx => by rw [hd k hk x]; exact hx) r h⟩

/-- A library that stays where it is, or goes to 0.99998 if that is downhill. -/
def exDown : Setup ℚ ℚ :=
  ⟨1, fun i x => if i = 0 ∨ x < 99998 / 100000 then .done x (exLoss x) else .done (99998 / 100000) (exLoss (99998 / 100000)),
    fun _ x => some (exLoss x), fun _ => false, critGoal (1 / 1000) 1⟩

theorem exDown_proper : exDown.Proper exLoss 0 1 := by
  refine ⟨by decide +kernel, fun i x y v hx h => ?_, fun i x y v h => ?_⟩
  · unfold exDown at h
    dsimp only at h
    split_ifs at h <;> simp only [Run.done.injEq] at h <;> rw [← h.1]
    · exact hx
    · exact ⟨by norm_num, by norm_num⟩
  · unfold exDown at h
    dsimp only at h
    split_ifs at h with hc <;> simp only [Run.done.injEq] at h <;> rw [← h.1]
    simp only [not_or, not_lt] at hc
    unfold exLoss
    have := mul_le_mul hc.2 hc.2 (by norm_num) (by linarith [hc.2])
    linarith

example : ∃ r, ipopt exDown = .ok r ∧ r.values = 99998 / 100000 := ⟨⟨99998 / 100000, some (exLoss (99998 / 100000)), some (exLoss (99998 / 100000)), true, .none⟩, by decide +kernel⟩

/-- C99 fails for Scipy: with the same library, which respects the limits 0 and 1 and never goes uphill, the reported point is above the
limit and worse than the starting point; the result is valid. -/
theorem scipy_inside_violated : exDown.Proper exLoss 0 1 ∧
    ∃ r, scipy { exDown with atLimit := fun _ => false, displace := fun _ x => x + 1 / 50 } = .ok r ∧ r.valid = true ∧ 1 < r.values ∧
      exLoss exDown.start < exLoss r.values :=
  ⟨exDown_proper, ⟨99998 / 100000 + 1 / 50, some (exLoss (99998 / 100000)), some (exLoss (99998 / 100000)), true, .none⟩, by decide +kernel⟩

/-! ## C100: a failed run is tried again from elsewhere, and what was found is not lost -/

/-- C100 fails for NLopt: the random starting point drawn after a failed run is never used; the result is the same for all of them, and a
library that fails at the starting point is asked 20 times at the same point. -/
theorem nlopt_restart_violated (s : Nlopt X K) (restart : ℕ → X → X) : nlopt { s with restart := restart } = nlopt s :=
  nloptLoop_restart s restart 20 0 ⟨s.start, s.start, 0, none, .none⟩ s.start

/-- C100, an instance: the restarts would go to the minimum at 0, where this library succeeds. -/
theorem nlopt_stuck_violated : ∃ r, nlopt { exFailing with run := fun _ x => if x = 1 then .runtime else .done 0 0 } = .ok r ∧ r.values = 1 ∧ r.valid = false :=
  ⟨⟨1, some (1 / 2000), some (1 / 1000), false, .notReached⟩, by decide +kernel⟩

/-- C100 fails for Scipy: if a later run exceeds the budget, `MaximumIterationReached` is raised and the points that earlier runs found are
lost. -/
theorem scipy_budget_violated : scipy { exScipy with run := fun i x => if i = 0 then .done x (exLoss x) else .budget } = .error .maximumIterationReached := by
  decide +kernel

/-- C100 (Scipy): the errors are those of the runs; `MaximumIterationReached` comes from some run, not necessarily the first. -/
theorem scipy_errors (s : Scipy X K) (e : Err) (h : scipy s = .error e) : ∃ j < 20, ∃ x0, s.run j x0 = .budget ∧ e = .maximumIterationReached ∨
    s.run j x0 = .runtime ∧ e = .runtimeError ∨ s.run j x0 = .failed e := by
  obtain ⟨j, hj, rest⟩ := scipyLoop_errors s 20 0 _ e (by simp) h
  exact ⟨j, by omega, rest⟩

/-- C100, the part that holds (Ipyopt): running out of budget is not an error; the result carries the last point and says so. Missing from
the full claim: the cases of `nlopt_restart_violated`, `nlopt_stuck_violated`, `scipy_budget_violated`. -/
theorem ipopt_budget_partial (s : Setup X K) (hs : ∀ i x, s.run i x ≠ .runtime ∧ ∀ e, s.run i x ≠ .failed e) : ∃ r, ipopt s = .ok r := by
  have : ∀ (fuel i : ℕ) (st : IpoptSt X K), ∃ r, ipoptLoop s fuel i st = .ok r := by
    intro fuel
    induction fuel with
    | zero => intro i st; exact ⟨_, rfl⟩
    | succ n ih =>
      intro i st
      have ht : ∃ o, ipoptTurn s i st = .ok o := by
        unfold ipoptTurn ipoptCall
        cases hr : s.run i st.x with
        | runtime => exact absurd hr (hs i _).1
        | failed e => exact absurd hr ((hs i _).2 e)
        | done x v => simp only [bind, Except.bind, pure, Except.pure]; split_ifs <;> exact ⟨_, rfl⟩
        | budget => simp only [bind, Except.bind, pure, Except.pure]; split_ifs <;> exact ⟨_, rfl⟩
      obtain ⟨o, ho⟩ := ht
      unfold ipoptLoop
      rw [ho]
      cases o with
      | inr r => exact ⟨r, rfl⟩
      | inl st' => exact ih (i + 1) st'
  exact this 20 0 _

/-- C100 (NLopt), the part that holds: with the return codes that the NLopt manual documents, -5 to -1 and 1 to 6, running out of budget and
failing runs are no errors; a result is returned.  Missing from the full claim: the cases of `nlopt_restart_violated` and
`nlopt_stuck_violated`. -/
theorem nlopt_returns_partial (s : Nlopt X K) (hs : ∀ i x e, s.run i x ≠ .failed e)
    (hc : ∀ i, (-5 ≤ s.status i ∧ s.status i ≤ -1) ∨ (1 ≤ s.status i ∧ s.status i ≤ 6)) : ∃ r, nlopt s = .ok r := by
  have hk : ∀ i, knownStatus (s.status i) = true := by
    intro i
    unfold knownStatus
    rw [decide_eq_true_eq]
    simp only [List.mem_cons, List.not_mem_nil, or_false]
    have := hc i
    omega
  have hf : ∀ i x edm v m, ∃ r, fromNlopt s i x edm v m = .ok r := by
    intro i x edm v m
    exact ⟨_, by unfold fromNlopt; rw [if_pos (hk i)]⟩
  have hcall : ∀ i st, ∃ t, nloptCall s i st = .ok t := by
    intro i st
    unfold nloptCall
    rcases h : s.run i st.x with ⟨x, v⟩ | _ | _ | e
    · exact ⟨_, rfl⟩
    · exact ⟨_, rfl⟩
    · simp only
      split <;> exact ⟨_, rfl⟩
    · exact absurd h (hs i st.x e)
  have hturn : ∀ i st, (∃ r, nloptTurn s i st = .ok (.inr r)) ∨ ∃ t : NloptSt X K, nloptTurn s i st = .ok (.inl t) ∧ t.last ≠ none := by
    intro i st
    obtain ⟨⟨x, y, n, b, m⟩, ht⟩ := hcall i st
    obtain ⟨r1, h1⟩ := hf i x none false m
    obtain ⟨r2, h2⟩ := hf i x (s.crit i x) (below (s.crit i x) s.goal) m
    unfold nloptTurn
    rw [ht]
    simp only [except_bind_ok, h1, h2]
    split
    · exact Or.inl ⟨_, rfl⟩
    · exact Or.inr ⟨_, rfl, by simp⟩
  have : ∀ (fuel i : ℕ) (st : NloptSt X K), (fuel = 0 → st.last ≠ none) → ∃ r, nloptLoop s fuel i st = .ok r := by
    intro fuel
    induction fuel with
    | zero =>
      intro i st hl
      rcases hlast : st.last with _ | ⟨j, edm⟩
      · exact absurd hlast (hl rfl)
      · simp only [nloptLoop, hlast]
        exact hf _ _ _ _ _
    | succ n ih =>
      intro i st _
      rcases hturn i st with ⟨r, hr⟩ | ⟨t, ht, hl⟩
      · exact ⟨r, by simp only [nloptLoop, hr]⟩
      · obtain ⟨r, hr⟩ := ih (i + 1) t (fun _ => hl)
        exact ⟨r, by simp only [nloptLoop, ht, hr]⟩
  exact this 20 0 _ (by simp)

/-- The library that always fails meets the hypotheses. -/
example : ∃ r, nlopt exFailing = .ok r := nlopt_returns_partial _ (fun _ _ _ => by simp [exFailing]) (fun _ => by simp [exFailing])

end Zfit.Wrap
