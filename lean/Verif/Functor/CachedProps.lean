import Verif.Functor.CachedModel
import Mathlib.Data.List.Forall2
import Mathlib.Tactic.Linarith
import Mathlib.Tactic.Ring

namespace Zfit.Functor

open Zfit

/-- Elementwise nearer than the tolerance. -/
def Near (tol : Rat) (a b : List Rat) : Prop := List.Forall₂ (fun u v => |u - v| < tol) a b

theorem near_refl {tol : Rat} (h : 0 < tol) (a : List Rat) : Near tol a a := by
  unfold Near
  rw [List.forall₂_same]
  intro x _
  simpa using h

theorem close_same {tol : Rat} {a b : List Rat} (h : a.length = b.length) :
    ∃ r, close tol a b = .ok r ∧ (r = true ↔ Near tol a b) := by
  unfold close
  rw [if_pos h]
  refine ⟨_, rfl, ?_⟩
  unfold Near
  rw [List.forall₂_iff_zip]
  simp only [List.all_eq_true, decide_eq_true_eq, Prod.forall, h, true_and]

/-- The invariant of one cache: never used, or what it holds is the value of `f` for the stored parameters and key. -/
def Sound {V : Type} (f : List Rat → List Rat → V) (nP nK : Nat) (st : Cache V) : Prop :=
  st.params.length = nP ∧
  (st.key = none ∨ ∃ k, st.key = some k ∧ k.length = nK ∧ st.value = f st.params k)

theorem sound_call {V : Type} {tol : Rat} (ht : 0 < tol) (ht' : tol ≤ 19) (f : List Rat → List Rat → V) {nP nK : Nat}
    (hK : 0 < nK) {st : Cache V} (hs : Sound f nP nK st) {params key : List Rat} (hp : params.length = nP)
    (hk : key.length = nK) :
    Sound f nP nK (cachedCall tol st params key (f params key)).1 ∧
    ∃ p k, Near tol params p ∧ Near tol key k ∧ (cachedCall tol st params key (f params key)).2 = .ok (f p k) := by
  obtain ⟨h1, h2⟩ := hs
  -- the key compared with
  have hck : (st.key.getD (key.map (· + 19))).length = key.length := by
    rcases h2 with h | ⟨k, h, hl, _⟩
    · simp [h]
    · simp [h, hl, hk]
  obtain ⟨r1, hr1, hr1'⟩ := close_same (tol := tol) hck.symm
  have hpl : params.length = st.params.length := hp.trans h1.symm
  obtain ⟨r2, hr2, hr2'⟩ := close_same (tol := tol) hpl
  -- the outcome of the comparison
  obtain ⟨r, hr, hr'⟩ : ∃ r, sameArgs tol st.params params key (st.key.getD (key.map (· + 19))) = .ok r ∧
      (r = true → Near tol params st.params ∧ Near tol key (st.key.getD (key.map (· + 19)))) := by
    unfold sameArgs
    rw [hr1]
    by_cases hp0 : params.length > 0
    · refine ⟨r2 && r1, by simp [hr2, bind, Except.bind, pure, Except.pure, hp0], ?_⟩
      simp only [Bool.and_eq_true]
      exact fun h => ⟨hr2'.1 h.1, hr1'.1 h.2⟩
    · refine ⟨r1, by simp [bind, Except.bind, pure, Except.pure, hp0], ?_⟩
      intro h
      have e1 : params = [] := List.length_eq_zero_iff.1 (by omega)
      have e2 : st.params = [] := List.length_eq_zero_iff.1 (by omega)
      rw [e1, e2]
      exact ⟨List.Forall₂.nil, hr1'.1 h⟩
  unfold cachedCall
  simp only [hr]
  cases r with
  | false =>
    simp only
    refine ⟨⟨?_, .inr ⟨key, rfl, hk, ?_⟩⟩, params, key, near_refl ht _, near_refl ht _, rfl⟩
    · split
      · exact hp
      · exact h1
    · simp only
      split
      · rfl
      · rename_i h0
        have e1 : params = [] := List.length_eq_zero_iff.1 (by omega)
        have e2 : st.params = [] := List.length_eq_zero_iff.1 (by omega)
        rw [e1, e2]
  | true =>
    obtain ⟨hn1, hn2⟩ := hr' rfl
    rcases h2 with h | ⟨k, h, hl, hv⟩
    · exfalso
      rw [h] at hn2
      simp only [Option.getD_none] at hn2
      cases key with
      | nil => simp at hk; omega
      | cons x xs =>
        unfold Near at hn2
        simp only [List.map_cons, List.forall₂_cons] at hn2
        have := hn2.1
        rw [show x - (x + 19) = -19 by ring, abs_neg, abs_of_pos (by norm_num)] at this
        linarith
    · rw [h] at hn2
      simp only [Option.getD_some] at hn2
      simp only [h, Option.getD_some]
      exact ⟨⟨h1, .inr ⟨k, rfl, hl, hv⟩⟩, st.params, k, hn1, hn2, by rw [hv]⟩

theorem floats_all {w : World} (h : w.floating = w.all.map (fun _ => true)) : w.floats = w.all := by
  unfold World.floats
  rw [h]
  have : ∀ l : List Rat, ((l.zip (l.map (fun _ => true))).filter (·.2)).map (·.1) = l := by
    intro l
    induction l with
    | nil => rfl
    | cons a l ih => simp only [List.map_cons, List.zip_cons_cons, List.filter_cons, if_true, ih]
  exact this _

/-- C28, `pdf`: if all parameters of the wrapped PDF float, the calls use one normalisation and data of one (non-zero)
size, then after any sequence of evaluations and parameter changes every call returns a value the wrapped PDF has for
parameters and data that differ from the present ones by less than the tolerance. Missing from the full claim: the cases of
`cached_pdf_norm_violated`, `cached_integrate_norm_violated`, `cached_pdf_fixed_parameter_violated`, `cached_pdf_first_call_violated`,
`cached_pdf_other_size_violated`. -/
theorem cached_pdf_partial (tol : Rat) (ht : 0 < tol) (ht' : tol ≤ 19) (m : Wrapped) (norm : Bool) (nAll n : Nat)
    (hn : 0 < n) (junk : List Rat) (calls : List (World × List Rat))
    (hc : ∀ c ∈ calls, c.1.floating = c.1.all.map (fun _ => true) ∧ c.1.all.length = nAll ∧ c.2.length = n) :
    List.Forall₂ (fun c r => ∃ p x, Near tol c.1.all p ∧ Near tol c.2 x ∧ r = .ok (m.pdf p x norm)) calls
      (cachedCalls (fun st c => cachedPdf tol m st c.1 c.2 norm) (Cache.init nAll junk) calls) := by
  have key : ∀ (calls : List (World × List Rat)) (st : Cache (List Rat)),
      (∀ c ∈ calls, c.1.floating = c.1.all.map (fun _ => true) ∧ c.1.all.length = nAll ∧ c.2.length = n) →
      Sound (fun p x => m.pdf p x norm) nAll n st →
      List.Forall₂ (fun c r => ∃ p x, Near tol c.1.all p ∧ Near tol c.2 x ∧ r = .ok (m.pdf p x norm)) calls
        (cachedCalls (fun st c => cachedPdf tol m st c.1 c.2 norm) st calls) := by
    intro calls
    induction calls with
    | nil => intros; exact List.Forall₂.nil
    | cons c cs ih =>
      intro st hc hs
      obtain ⟨h1, h2, h3⟩ := hc c List.mem_cons_self
      have hcall := sound_call ht ht' (fun p x => m.pdf p x norm) hn hs h2 h3
      have he : cachedPdf tol m st c.1 c.2 norm = cachedCall tol st c.1.all c.2 (m.pdf c.1.all c.2 norm) := by
        unfold cachedPdf
        rw [floats_all h1]
      unfold cachedCalls
      simp only [he]
      exact List.Forall₂.cons hcall.2 (ih _ (fun d hd => hc d (List.mem_cons_of_mem _ hd)) hcall.1)
  exact key calls _ hc ⟨by simp [Cache.init], .inl rfl⟩

/-- C28, `integrate`: with one normalisation, every integral returned is one the wrapped PDF has for parameters and
limits that differ from the present ones by less than the tolerance, whichever parameters float. Missing from the full claim: the cases of
`cached_pdf_norm_violated`, `cached_integrate_norm_violated`, `cached_pdf_fixed_parameter_violated`, `cached_pdf_first_call_violated`,
`cached_pdf_other_size_violated`. -/
theorem cached_integrate_partial (tol : Rat) (ht : 0 < tol) (ht' : tol ≤ 19) (m : Wrapped) (norm : Bool) (nAll : Nat)
    (junk : Rat) (calls : List (World × List Rat)) (hc : ∀ c ∈ calls, c.1.all.length = nAll ∧ c.2.length = 2) :
    List.Forall₂ (fun c r => ∃ p l, Near tol c.1.all p ∧ Near tol c.2 l ∧ r = .ok (m.integrate p l norm)) calls
      (cachedCalls (fun st c => cachedIntegrate tol m st c.1 c.2 norm) (Cache.init nAll junk) calls) := by
  have key : ∀ (calls : List (World × List Rat)) (st : Cache Rat),
      (∀ c ∈ calls, c.1.all.length = nAll ∧ c.2.length = 2) →
      Sound (fun p x => m.integrate p x norm) nAll 2 st →
      List.Forall₂ (fun c r => ∃ p l, Near tol c.1.all p ∧ Near tol c.2 l ∧ r = .ok (m.integrate p l norm)) calls
        (cachedCalls (fun st c => cachedIntegrate tol m st c.1 c.2 norm) st calls) := by
    intro calls
    induction calls with
    | nil => intros; exact List.Forall₂.nil
    | cons c cs ih =>
      intro st hc hs
      obtain ⟨h2, h3⟩ := hc c List.mem_cons_self
      have hcall := sound_call ht ht' (fun p x => m.integrate p x norm) (by norm_num) hs h2 h3
      unfold cachedCalls
      exact List.Forall₂.cons hcall.2 (ih _ (fun d hd => hc d (List.mem_cons_of_mem _ hd)) hcall.1)
  exact key calls _ hc ⟨by simp [Cache.init], .inl rfl⟩

/-! ### examples -/

/-- a wrapped PDF with the value `p₀ x + p₁`, four times less when normalised -/
def exWrapped : Wrapped where
  pdf p x norm := x.map (fun v => (p.getD 0 0 * v + p.getD 1 0) / (if norm then 4 else 1))
  integrate p l norm := (p.getD 0 0) * (l.getD 1 0 - l.getD 0 0) / (if norm then 4 else 1)

def exTol : Rat := 1 / 100000000

/-- both parameters floating -/
def exWorld (a b : Rat) : World := ⟨[a, b], [true, true]⟩

/-- non-vacuity: three evaluations with a change of a parameter, and of the data, in between -/
example : cachedCalls (fun st c => cachedPdf exTol exWrapped st c.1 c.2 true) (Cache.init 2 [])
    [(exWorld 1 2, [0, 4]), (exWorld 1 2, [0, 4]), (exWorld 2 2, [0, 4]), (exWorld 2 2, [1, 4])] =
    [.ok [1/2, 3/2], .ok [1/2, 3/2], .ok [1/2, 5/2], .ok [1, 5/2]] := by decide +kernel

/-- C28 is violated when the normalisation changes: `pdf(x, norm=False)` after `pdf(x)` returns the normalised values. -/
theorem cached_pdf_norm_violated :
    ((cachedPdf exTol exWrapped (cachedPdf exTol exWrapped (Cache.init 2 []) (exWorld 1 2) [0, 4] true).1
      (exWorld 1 2) [0, 4] false).2 = .ok [1/2, 3/2]) ∧
    exWrapped.pdf [1, 2] [0, 4] false = [2, 6] := by decide +kernel

/-- The same for `integrate`. -/
theorem cached_integrate_norm_violated :
    ((cachedIntegrate exTol exWrapped (cachedIntegrate exTol exWrapped (Cache.init 2 0) (exWorld 1 2) [0, 4] true).1
      (exWorld 1 2) [0, 4] false).2 = .ok 1) ∧
    exWrapped.integrate [1, 2] [0, 4] false = 4 := by decide +kernel

/-- C28 is violated when a parameter that does not float changes: the old values are returned. -/
theorem cached_pdf_fixed_parameter_violated :
    ((cachedPdf exTol exWrapped (cachedPdf exTol exWrapped (Cache.init 2 []) ⟨[1, 2], [true, false]⟩ [0, 4] true).1
      ⟨[1, 10], [true, false]⟩ [0, 4] true).2 = .ok [1/2, 3/2]) ∧
    exWrapped.pdf [1, 10] [0, 4] true = [5/2, 7/2] := by decide +kernel

/-- C28 is violated for a PDF with three parameters of which two float: its first evaluation raises, because two values
are compared with three. -/
theorem cached_pdf_first_call_violated :
    (cachedPdf exTol exWrapped (Cache.init 3 []) ⟨[1, 2, 3], [true, true, false]⟩ [0, 4] true).2 =
      .error .invalidArgument := by decide +kernel

/-- C28 is violated for data of another size (neither being a single event): the evaluation raises. -/
theorem cached_pdf_other_size_violated :
    (cachedPdf exTol exWrapped (cachedPdf exTol exWrapped (Cache.init 2 []) (exWorld 1 2) [0, 4] true).1
      (exWorld 1 2) [0, 4, 5] true).2 = .error .invalidArgument := by decide +kernel

/-- What happens when one event follows several or several follow one, with the same parameters: the single event is compared with each of the
others, and only if all of them are the same event the old value, of the other length, is returned. -/
theorem cached_other_length {V : Type} {tol : Rat} (ht : 0 < tol) (st : Cache V) (v : Rat) (many : List Rat) (h2 : 2 ≤ many.length) (compute : V) :
    (st.key = some [v] → (cachedCall tol st st.params many compute).2 =
      .ok (if ∀ x ∈ many, |x - v| < tol then st.value else compute)) ∧
    (st.key = some many → (cachedCall tol st st.params [v] compute).2 =
      .ok (if ∀ x ∈ many, |v - x| < tol then st.value else compute)) := by
  obtain ⟨r, hr, hr'⟩ := close_same (tol := tol) (a := st.params) (b := st.params) rfl
  have hrt : r = true := hr'.2 (near_refl ht _)
  subst hrt
  have hne : many.length ≠ 1 := by omega
  constructor
  · intro hk
    have hc : close tol many [v] = .ok (decide (∀ x ∈ many, |x - v| < tol)) := by
      unfold close
      rw [if_neg (by simpa using hne)]
      simp only [Except.ok.injEq]
      rw [Bool.eq_iff_iff]
      simp
    by_cases hall : ∀ x ∈ many, |x - v| < tol
    · simp only [cachedCall, hk, Option.getD_some, sameArgs, hc, hr, bind, Except.bind, pure, Except.pure, decide_eq_true hall, if_pos hall,
        Bool.and_self, ite_self]
    · simp only [cachedCall, hk, Option.getD_some, sameArgs, hc, hr, bind, Except.bind, pure, Except.pure, decide_eq_false hall, if_neg hall,
        Bool.and_false, ite_self]
  · intro hk
    have hc : close tol [v] many = .ok (decide (∀ x ∈ many, |v - x| < tol)) := by
      unfold close
      rw [if_neg (by simpa using Ne.symm hne)]
      match many, h2 with
      | a :: b :: l, _ =>
        simp only [Except.ok.injEq]
        rw [Bool.eq_iff_iff]
        simp
    by_cases hall : ∀ x ∈ many, |v - x| < tol
    · simp only [cachedCall, hk, Option.getD_some, sameArgs, hc, hr, bind, Except.bind, pure, Except.pure, decide_eq_true hall, if_pos hall,
        Bool.and_self, ite_self]
    · simp only [cachedCall, hk, Option.getD_some, sameArgs, hc, hr, bind, Except.bind, pure, Except.pure, decide_eq_false hall, if_neg hall,
        Bool.and_false, ite_self]

/-- C28 is violated for one event after two equal ones, and the other way round: the number of values is that of the events before. -/
theorem cached_pdf_single_event_violated :
    (cachedPdf exTol exWrapped (cachedPdf exTol exWrapped (Cache.init 2 []) (exWorld 1 2) [4] true).1 (exWorld 1 2) [4, 4] true).2 = .ok [3/2] ∧
    (cachedPdf exTol exWrapped (cachedPdf exTol exWrapped (Cache.init 2 []) (exWorld 1 2) [4, 4] true).1 (exWorld 1 2) [4] true).2 =
      .ok [3/2, 3/2] := by decide +kernel

end Zfit.Functor
