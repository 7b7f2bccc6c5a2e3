import Verif.Wrap.Model
import Mathlib.Tactic.SplitIfs
import Mathlib.Tactic.Push
import Mathlib.Tactic.Linarith

/-! # What one turn and the whole of each loop do -/

namespace Zfit.Wrap
variable {X K : Type} [Field K] [LinearOrder K]

/-! ## Scipy -/

/-- A turn that ends or continues has a finished run. -/
theorem scipyTurn_spec (s : Scipy X K) (i : ℕ) (st : ScipySt X K) (o : ScipySt X K ⊕ Report X K) (h : scipyTurn s i st = .ok o) :
    ∃ x v, s.run i st.init = .done x v ∧
      match o with
      | .inl st' => (st'.init = x ∨ st.nrandom < 5 ∧ st'.init = s.displace st.nrandom x) ∧ st'.last = some (v, s.crit i x) ∧
          st.nrandom ≤ st'.nrandom ∧ (st.nrandom ≤ 5 → st'.nrandom ≤ 5) ∧ below (s.crit i x) s.goal = false
      | .inr r => r.fmin = some v ∧ r.edm = s.crit i x ∧ (r.values = x ∨ st.nrandom < 5 ∧ r.values = s.displace st.nrandom x) ∧
          (r.valid = true ↔ below (s.crit i x) s.goal = true ∧ s.over i = false ∧ r.message ≠ .stuck) := by
  unfold scipyTurn at h
  cases hr : s.run i st.init with
  | budget => rw [hr] at h; simp at h
  | runtime => rw [hr] at h; simp at h
  | failed e => rw [hr] at h; simp at h
  | done x v =>
    refine ⟨x, v, rfl, ?_⟩
    rw [hr] at h
    dsimp only at h
    split_ifs at h with h1 h2 h3 h4 h5 h6 h7 h8 h9 h10 h11 <;>
      simp only [Except.ok.injEq] at h <;> subst h <;> simp_all <;> omega

theorem scipyLoop_spec (s : Scipy X K) : ∀ (fuel i : ℕ) (st : ScipySt X K) (r : Report X K), scipyLoop s fuel i st = .ok r → st.nrandom ≤ 5 →
    (∀ v e, st.last = some (v, e) → ∃ j < i, ∃ x0 x, s.run j x0 = .done x v ∧ e = s.crit j x ∧
      (st.init = x ∨ ∃ k < 5, st.init = s.displace k x) ∧ below e s.goal = false) →
    ∃ j < i + fuel, ∃ x0 x v, s.run j x0 = .done x v ∧ r.fmin = some v ∧ r.edm = s.crit j x ∧
      (r.values = x ∨ ∃ k < 5, r.values = s.displace k x) ∧
      (r.valid = true ↔ below r.edm s.goal = true ∧ s.over j = false ∧ r.message ≠ .stuck) := by
  intro fuel
  induction fuel with
  | zero =>
    intro i st r h _ hl
    unfold scipyLoop at h
    cases hst : st.last with
    | none => rw [hst] at h; simp at h
    | some p =>
      obtain ⟨v, e⟩ := p
      rw [hst] at h
      simp only [Except.ok.injEq] at h
      obtain ⟨j, hj, x0, x, hr, he, hx, hb⟩ := hl v e hst
      subst h
      exact ⟨j, by omega, x0, x, v, hr, rfl, he, hx, by simp [hb]⟩
  | succ n ih =>
    intro i st r h hn hl
    unfold scipyLoop at h
    cases ht : scipyTurn s i st with
    | error e => rw [ht] at h; simp at h
    | ok o =>
      rw [ht] at h
      obtain ⟨x, v, hr, ho⟩ := scipyTurn_spec s i st o ht
      cases o with
      | inr q =>
        simp only [Except.ok.injEq] at h
        subst h
        obtain ⟨hf, he, hx, hv⟩ := ho
        exact ⟨i, by omega, st.init, x, v, hr, hf, he, hx.imp id fun hk => ⟨_, hk⟩, by rw [he]; exact hv⟩
      | inl st' =>
        obtain ⟨hi, hlast, _, h5, hb⟩ := ho
        obtain ⟨j, hj, rest⟩ := ih (i + 1) st' r h (h5 hn) (fun v' e' hve => by
          rw [hlast] at hve
          simp only [Option.some.injEq, Prod.mk.injEq] at hve
          obtain ⟨rfl, rfl⟩ := hve
          exact ⟨i, by omega, st.init, x, hr, rfl, hi.imp id fun hk => ⟨_, hk⟩, hb⟩)
        exact ⟨j, by omega, rest⟩

/-- What holds of the starting values, is kept by the library and by the displacements holds of the reported values. -/
theorem scipyLoop_invariant (s : Scipy X K) (P : X → Prop) (hrun : ∀ i x y v, P x → s.run i x = .done y v → P y)
    (hd : ∀ k < 5, ∀ x, P x → P (s.displace k x)) : ∀ (fuel i : ℕ) (st : ScipySt X K) (r : Report X K), P st.init →
    scipyLoop s fuel i st = .ok r → P r.values := by
  intro fuel
  induction fuel with
  | zero =>
    intro i st r hp h
    unfold scipyLoop at h
    cases hst : st.last with
    | none => rw [hst] at h; simp at h
    | some p => rw [hst] at h; simp only [Except.ok.injEq] at h; subst h; exact hp
  | succ n ih =>
    intro i st r hp h
    unfold scipyLoop at h
    cases ht : scipyTurn s i st with
    | error e => rw [ht] at h; simp at h
    | ok o =>
      rw [ht] at h
      obtain ⟨x, v, hr, ho⟩ := scipyTurn_spec s i st o ht
      have hx := hrun i _ x v hp hr
      cases o with
      | inr q =>
        simp only [Except.ok.injEq] at h
        subst h
        rcases ho.2.2.1 with e | ⟨hk, e⟩ <;> rw [e]
        · exact hx
        · exact hd _ hk x hx
      | inl st' =>
        refine ih (i + 1) st' r ?_ h
        rcases ho.1 with e | ⟨hk, e⟩ <;> rw [e]
        · exact hx
        · exact hd _ hk x hx

theorem scipyLoop_errors (s : Scipy X K) (fuel i : ℕ) (st : ScipySt X K) (e : Err) (hl : fuel = 0 → st.last ≠ none)
    (h : scipyLoop s fuel i st = .error e) : ∃ j < i + fuel, ∃ x0, s.run j x0 = .budget ∧ e = .maximumIterationReached ∨
      s.run j x0 = .runtime ∧ e = .runtimeError ∨ s.run j x0 = .failed e := by
  induction fuel generalizing i st with
  | zero =>
    unfold scipyLoop at h
    cases hst : st.last with
    | none => exact absurd hst (hl rfl)
    | some p => rw [hst] at h; simp at h
  | succ n ih =>
    unfold scipyLoop at h
    cases ht : scipyTurn s i st with
    | error e' =>
      rw [ht] at h
      simp only [Except.error.injEq] at h
      subst h
      refine ⟨i, by omega, st.init, ?_⟩
      unfold scipyTurn at ht
      cases hr : s.run i st.init with
      | budget => rw [hr] at ht; simp_all
      | runtime => rw [hr] at ht; simp_all
      | failed e => rw [hr] at ht; simp_all
      | done x v =>
        rw [hr] at ht
        dsimp only at ht
        split_ifs at ht
    | ok o =>
      rw [ht] at h
      cases o with
      | inr q => simp at h
      | inl st' =>
        obtain ⟨x, v, hr, ho⟩ := scipyTurn_spec s i st _ ht
        obtain ⟨j, hj, rest⟩ := ih (i + 1) st' (fun _ => by rw [ho.2.1]; simp) h
        exact ⟨j, by omega, rest⟩

/-! ## NLopt -/

theorem fromNlopt_spec (s : Nlopt X K) (i : ℕ) (x : X) (e : Option K) (v : Bool) (m : Message) (r : Report X K)
    (h : fromNlopt s i x e v m = .ok r) : r.values = x ∧ r.fmin = some (s.lastValue i) ∧ r.edm = e ∧ r.message = m ∧
      (r.valid = true ↔ v = true ∧ 1 ≤ s.status i ∧ s.status i ≤ 4 ∧ s.over i = false) := by
  unfold fromNlopt at h
  split_ifs at h with hk
  simp only [Except.ok.injEq] at h
  subst h
  simp [and_assoc]

theorem nloptCall_spec (s : Nlopt X K) (i : ℕ) (st : NloptSt X K) (x y : X) (n : ℕ) (b : Bool) (m : Message)
    (h : nloptCall s i st = .ok (x, y, n, b, m)) :
    ((∃ v, s.run i st.x = .done x v) ∨ x = st.x ∧ ∀ z v, s.run i st.x ≠ .done z v) := by
  unfold nloptCall at h
  cases hr : s.run i st.x with
  | done z v =>
    rw [hr] at h
    simp only [Except.ok.injEq, Prod.mk.injEq] at h
    exact Or.inl ⟨v, by rw [h.1]⟩
  | budget =>
    rw [hr] at h
    simp only [Except.ok.injEq, Prod.mk.injEq] at h
    exact Or.inr ⟨h.1.symm, by simp⟩
  | runtime =>
    rw [hr] at h
    dsimp only at h
    split_ifs at h <;> simp only [Except.ok.injEq, Prod.mk.injEq] at h <;> exact Or.inr ⟨h.1.symm, by simp⟩
  | failed e => rw [hr] at h; simp at h

theorem nloptTurn_spec (s : Nlopt X K) (i : ℕ) (st : NloptSt X K) (o : NloptSt X K ⊕ Report X K) (h : nloptTurn s i st = .ok o) :
    ∃ x y n b m, nloptCall s i st = .ok (x, y, n, b, m) ∧
      match o with
      | .inl st' => st' = ⟨x, y, n, some (i, s.crit i x), m⟩ ∧ below (s.crit i x) s.goal = false ∧ b = false
      | .inr r => fromNlopt s i x (s.crit i x) (below (s.crit i x) s.goal) m = .ok r := by
  unfold nloptTurn at h
  cases hc : nloptCall s i st with
  | error e => rw [hc] at h; simp [bind, Except.bind] at h
  | ok p =>
    obtain ⟨x, y, n, b, m⟩ := p
    refine ⟨x, y, n, b, m, rfl, ?_⟩
    rw [hc] at h
    simp only [bind, Except.bind, pure, Except.pure] at h
    cases hf : fromNlopt s i x (none : Option K) false m with
    | error e => rw [hf] at h; simp at h
    | ok q =>
      rw [hf] at h
      dsimp only at h
      split_ifs at h with hb
      · cases hg : fromNlopt s i x (s.crit i x) (below (s.crit i x) s.goal) m with
        | error e => rw [hg] at h; simp at h
        | ok r => rw [hg] at h; simp only [Except.ok.injEq] at h; subst h; rfl
      · simp only [Except.ok.injEq] at h
        subst h
        simp only [Bool.or_eq_true, not_or, Bool.not_eq_true] at hb
        exact ⟨rfl, hb.1, hb.2⟩

theorem nloptLoop_spec (s : Nlopt X K) (x₁ : X) : ∀ (fuel i : ℕ) (st : NloptSt X K) (r : Report X K), nloptLoop s fuel i st = .ok r →
    (st.x = x₁ ∨ ∃ j < i, ∃ x0 v, s.run j x0 = .done st.x v) →
    (∀ j e, st.last = some (j, e) → i = j + 1 ∧ e = s.crit j st.x ∧ below e s.goal = false ∧
      ∃ x0, ∀ z v, s.run j x0 = .done z v → z = st.x) →
    ∃ j < i + fuel, r.fmin = some (s.lastValue j) ∧ r.edm = s.crit j r.values ∧
      (r.values = x₁ ∨ ∃ j' < j + 1, ∃ x0 v, s.run j' x0 = .done r.values v) ∧
      (∃ x0, ∀ z v, s.run j x0 = .done z v → z = r.values) ∧
      (r.valid = true ↔ below r.edm s.goal = true ∧ 1 ≤ s.status j ∧ s.status j ≤ 4 ∧ s.over j = false) := by
  intro fuel
  induction fuel with
  | zero =>
    intro i st r h hx hl
    unfold nloptLoop at h
    cases hst : st.last with
    | none => rw [hst] at h; simp at h
    | some p =>
      obtain ⟨j, e⟩ := p
      rw [hst] at h
      dsimp only at h
      obtain ⟨rfl, he, hb, hz⟩ := hl j e hst
      obtain ⟨h1, h2, h3, h4, h5⟩ := fromNlopt_spec s j _ _ _ _ r h
      refine ⟨j, by omega, h2, ?_, ?_, ?_, ?_⟩
      · rw [h3, h1, he]
      · rw [h1]; exact hx
      · rw [h1]; exact hz
      · simp [h5, h3, hb]
  | succ n ih =>
    intro i st r h hx hl
    unfold nloptLoop at h
    cases ht : nloptTurn s i st with
    | error e => rw [ht] at h; simp at h
    | ok o =>
      rw [ht] at h
      obtain ⟨x, y, k, b, m, hc, ho⟩ := nloptTurn_spec s i st o ht
      have hcall := nloptCall_spec s i st x y k b m hc
      have hx' : x = x₁ ∨ ∃ j < i + 1, ∃ x0 v, s.run j x0 = .done x v := by
        rcases hcall with ⟨v, hv⟩ | ⟨rfl, -⟩
        · exact Or.inr ⟨i, by omega, st.x, v, hv⟩
        · exact hx.imp id fun ⟨j, hj, q⟩ => ⟨j, by omega, q⟩
      have hz : ∃ x0, ∀ z v, s.run i x0 = .done z v → z = x := by
        refine ⟨st.x, fun z v hzv => ?_⟩
        rcases hcall with ⟨w, hw⟩ | ⟨rfl, hn⟩
        · rw [hw] at hzv; simp only [Run.done.injEq] at hzv; exact hzv.1.symm
        · exact absurd hzv (hn z v)
      cases o with
      | inr q =>
        simp only [Except.ok.injEq] at h
        subst h
        obtain ⟨h1, h2, h3, h4, h5⟩ := fromNlopt_spec s i _ _ _ _ q ho
        refine ⟨i, by omega, h2, by rw [h3, h1], by rw [h1]; exact hx', by rw [h1]; exact hz, by rw [h5, h3]⟩
      | inl st' =>
        obtain ⟨rfl, hb, -⟩ := ho
        obtain ⟨j, hj, rest⟩ := ih (i + 1) _ r h hx' (fun j e hje => by
          simp only [Option.some.injEq, Prod.mk.injEq] at hje
          obtain ⟨rfl, rfl⟩ := hje
          exact ⟨rfl, rfl, hb, hz⟩)
        exact ⟨j, by omega, rest⟩

/-- The random restarts are never used. -/
theorem nloptLoop_restart (s : Nlopt X K) (r' : ℕ → X → X) : ∀ (fuel i : ℕ) (st : NloptSt X K) (y : X),
    nloptLoop { s with restart := r' } fuel i { st with initial := y } = nloptLoop s fuel i st := by
  intro fuel
  induction fuel with
  | zero => intro i st y; rfl
  | succ n ih =>
    intro i st y
    unfold nloptLoop nloptTurn nloptCall
    dsimp only
    cases hr : s.run i st.x with
    | failed e => simp [bind, Except.bind]
    | done x v =>
      simp only [bind, Except.bind, pure, Except.pure, fromNlopt]
      split_ifs <;> first | rfl | exact ih (i + 1) ⟨x, st.initial, st.nrandom, some (i, s.crit i x), st.message⟩ y
    | budget =>
      simp only [bind, Except.bind, pure, Except.pure, fromNlopt]
      split_ifs <;> first | rfl | exact ih (i + 1) ⟨st.x, st.initial, st.nrandom, some (i, s.crit i st.x), .maxiter⟩ y
    | runtime =>
      dsimp only
      by_cases h5 : st.nrandom < 5
      · simp only [bind, Except.bind, pure, Except.pure, fromNlopt, if_pos h5]
        split_ifs <;> first | rfl | exact ih (i + 1) ⟨st.x, s.restart st.nrandom st.initial, st.nrandom + 1, some (i, s.crit i st.x), st.message⟩ (r' st.nrandom y)
      · simp only [bind, Except.bind, pure, Except.pure, fromNlopt, if_neg h5]
        split_ifs <;> first | rfl | exact ih (i + 1) ⟨st.x, st.initial, st.nrandom, some (i, s.crit i st.x), st.message⟩ y

/-! ## Ipyopt -/

theorem ipoptTurn_spec (s : Setup X K) (i : ℕ) (st : IpoptSt X K) (o : IpoptSt X K ⊕ Report X K) (h : ipoptTurn s i st = .ok o)
    (hv : st.valid = true ∧ st.message = .none) :
    ∃ x f, ((∃ v, s.run i st.x = .done x v ∧ f = some v) ∨ s.run i st.x = .budget ∧ x = st.x ∧ f = st.fmin) ∧
      match o with
      | .inl st' => st'.x = x ∧ st'.fmin = f ∧ st'.edm = s.crit i x ∧ st'.valid = true ∧ st'.message = .none ∧
          below (s.crit i x) s.goal = false ∧ s.run i st.x ≠ .budget
      | .inr r => r.values = x ∧ r.fmin = f ∧ r.edm = s.crit i x ∧ (r.message = .maxiter ↔ s.run i st.x = .budget) ∧
          (r.valid = true ↔ below (s.crit i x) s.goal = true ∧ s.over i = false ∧ s.run i st.x ≠ .budget) := by
  unfold ipoptTurn ipoptCall at h
  cases hr : s.run i st.x with
  | runtime => rw [hr] at h; simp [bind, Except.bind] at h
  | failed e => rw [hr] at h; simp [bind, Except.bind] at h
  | done x v =>
    rw [hr] at h
    simp only [bind, Except.bind, pure, Except.pure] at h
    refine ⟨x, some v, Or.inl ⟨v, rfl, rfl⟩, ?_⟩
    split_ifs at h with hb <;> simp only [Except.ok.injEq] at h <;> subst h <;> simp_all [fromIpopt]
  | budget =>
    rw [hr] at h
    simp only [bind, Except.bind, pure, Except.pure, Bool.or_true, if_true] at h
    refine ⟨st.x, st.fmin, Or.inr ⟨rfl, rfl, rfl⟩, ?_⟩
    simp only [Except.ok.injEq] at h
    subst h
    simp [fromIpopt]

theorem ipoptLoop_spec (s : Setup X K) (x₁ : X) : ∀ (fuel i : ℕ) (st : IpoptSt X K) (r : Report X K), ipoptLoop s fuel i st = .ok r →
    0 < fuel + i → st.valid = true ∧ st.message = .none →
    (st.x = x₁ ∧ st.fmin = none ∧ i = 0 ∨ ∃ j < i, ∃ x0 v, s.run j x0 = .done st.x v ∧ st.fmin = some v) →
    (i ≠ 0 → st.edm = s.crit (i - 1) st.x ∧ below st.edm s.goal = false) →
    ∃ j < i + fuel, r.edm = s.crit j r.values ∧
      (r.values = x₁ ∧ r.fmin = none ∧ r.message = .maxiter ∨ ∃ j' < j + 1, ∃ x0 v, s.run j' x0 = .done r.values v ∧ r.fmin = some v) ∧
      (r.valid = true ↔ below r.edm s.goal = true ∧ s.over j = false ∧ r.message ≠ .maxiter) := by
  intro fuel
  induction fuel with
  | zero =>
    intro i st r h hi hv hx hl
    unfold ipoptLoop at h
    simp only [Except.ok.injEq] at h
    subst h
    obtain ⟨he, hb⟩ := hl (by omega)
    refine ⟨i - 1, by omega, he, ?_, by simp [fromIpopt, hb]⟩
    rcases hx with ⟨_, _, h0⟩ | ⟨j, hj, rest⟩
    · omega
    · exact Or.inr ⟨j, by omega, rest⟩
  | succ n ih =>
    intro i st r h hi hv hx hl
    unfold ipoptLoop at h
    cases ht : ipoptTurn s i st with
    | error e => rw [ht] at h; simp at h
    | ok o =>
      rw [ht] at h
      obtain ⟨x, f, hxf, ho⟩ := ipoptTurn_spec s i st o ht hv
      cases o with
      | inr q =>
        simp only [Except.ok.injEq] at h
        subst h
        obtain ⟨h1, h2, h3, h4, h5⟩ := ho
        refine ⟨i, by omega, by rw [h3, h1], ?_, by rw [h5, h3, ne_eq, ne_eq, h4]⟩
        rcases hxf with ⟨v, hv', rfl⟩ | ⟨hb, rfl, rfl⟩
        · exact Or.inr ⟨i, by omega, st.x, v, by rw [h1]; exact hv', h2⟩
        · rcases hx with ⟨hx, hf, h0⟩ | ⟨j, hj, x0, v, hj', hf⟩
          · exact Or.inl ⟨by rw [h1, hx], by rw [h2, hf], h4.2 hb⟩
          · exact Or.inr ⟨j, by omega, x0, v, by rw [h1]; exact hj', by rw [h2, hf]⟩
      | inl st' =>
        obtain ⟨h1, h2, h3, h4, h5, h6, h7⟩ := ho
        obtain ⟨j, hj, rest⟩ := ih (i + 1) st' r h (by omega) ⟨h4, h5⟩ (by
          rcases hxf with ⟨v, hv', rfl⟩ | ⟨hb, -⟩
          · exact Or.inr ⟨i, by omega, st.x, v, by rw [h1]; exact hv', h2⟩
          · exact absurd hb h7) (fun _ => ⟨by rw [h3, h1]; rfl, by rw [h3]; exact h6⟩)
        exact ⟨j, by omega, rest⟩

/-! ## Minuit -/

/-- The criterion of Minuit after run `j`: iminuit's own for exactly `EDM`. -/
def Minuit.met (s : Minuit X K) (j : ℕ) (m : Migrad X K) : Bool := if s.isEdm then !m.above else below (s.crit j m.x) s.goal

theorem minuitLoop_spec (s : Minuit X K) : ∀ (fuel i : ℕ) (last : Option (Migrad X K)) (used : ℕ) (r : MinuitReport X K),
    minuitLoop s fuel i last used = .ok r → (∀ m, last = some m → ∃ j, i = j + 1 ∧ s.migrad j = some m ∧ s.met j m = false) →
    ∃ j < i + fuel, (s.migrad j = some r.from_ ∨ s.migrad j = none ∧ r.message = .maxiter ∧ ∃ j', j = j' + 1 ∧ s.migrad j' = some r.from_) ∧
      r.edm = (if s.isEdm then some r.from_.edm else s.crit j r.from_.x) ∧
      (r.valid = true ↔ s.migrad j = some r.from_ ∧ r.from_.isValid = true ∧ s.over j = false ∧ s.met j r.from_ = true) := by
  intro fuel
  induction fuel with
  | zero =>
    intro i last used r h hl
    unfold minuitLoop at h
    cases last with
    | none => simp at h
    | some m =>
      simp only [Except.ok.injEq] at h
      subst h
      obtain ⟨j, rfl, hm, hc⟩ := hl m rfl
      exact ⟨j, by omega, Or.inl hm, rfl, by simp [hc]⟩
  | succ n ih =>
    intro i last used r h hl
    unfold minuitLoop at h
    dsimp only at h
    cases hm : s.migrad i with
    | some m =>
      rw [hm] at h
      simp only [Option.some_or, Option.isNone_some, Bool.false_eq_true, if_false] at h
      have hmet : (if s.isEdm = true then !m.above else below (if s.isEdm = true then some m.edm else s.crit i m.x) s.goal) = s.met i m := by
        unfold Minuit.met
        split_ifs <;> rfl
      rw [hmet] at h
      by_cases hb : (s.met i m || s.over i) = true
      · rw [if_pos hb] at h
        simp only [Except.ok.injEq] at h
        subst h
        refine ⟨i, by omega, Or.inl hm, rfl, ?_⟩
        simp only [Bool.or_eq_true] at hb
        rcases hb with hb | hb <;> simp_all
      · rw [if_neg hb] at h
        simp only [Bool.or_eq_true, not_or, Bool.not_eq_true] at hb
        obtain ⟨j, hj, rest⟩ := ih (i + 1) (some m) _ r h (fun m' he => ⟨i, rfl, by rw [hm]; exact he, by
          simp only [Option.some.injEq] at he; rw [← he]; exact hb.1⟩)
        exact ⟨j, by omega, rest⟩
    | none =>
      rw [hm] at h
      simp only [Option.none_or, Option.isNone_none, if_true, Bool.or_true] at h
      cases last with
      | none => simp at h
      | some m =>
        simp only [Except.ok.injEq] at h
        subst h
        obtain ⟨j, rfl, hmj, hc⟩ := hl m rfl
        exact ⟨j + 1, by omega, Or.inr ⟨hm, rfl, j, rfl, hmj⟩, rfl, by simp [hm]⟩

theorem minuitLoop_used (s : Minuit X K) (n : ℕ) (hn : ∀ i m, s.migrad i = some m → m.calls ≤ n) : ∀ (fuel i : ℕ) (last : Option (Migrad X K))
    (used : ℕ) (r : MinuitReport X K), minuitLoop s fuel i last used = .ok r → r.used ≤ used + fuel * n := by
  intro fuel
  induction fuel with
  | zero =>
    intro i last used r h
    unfold minuitLoop at h
    cases last with
    | none => simp at h
    | some m => simp only [Except.ok.injEq] at h; subst h; simp
  | succ k ih =>
    intro i last used r h
    unfold minuitLoop at h
    dsimp only at h
    have hk : (k + 1) * n = k * n + n := Nat.succ_mul k n
    cases hm : s.migrad i with
    | some m =>
      have := hn i m hm
      rw [hm] at h
      simp only [Option.some_or, Option.isNone_some, Bool.false_eq_true, if_false] at h
      generalize (if s.isEdm = true then !m.above else below (if s.isEdm = true then some m.edm else s.crit i m.x) s.goal) = c at h
      by_cases hc : (c || s.over i) = true
      · rw [if_pos hc] at h
        simp only [Except.ok.injEq] at h
        subst h
        show used + m.calls ≤ _
        omega
      · rw [if_neg hc] at h
        have := ih _ _ _ r h
        omega
    | none =>
      rw [hm] at h
      simp only [Option.none_or, Option.isNone_none, if_true, Bool.or_true] at h
      cases last with
      | none => simp at h
      | some m =>
        simp only [Except.ok.injEq] at h
        subst h
        show used ≤ _
        omega

end Zfit.Wrap
