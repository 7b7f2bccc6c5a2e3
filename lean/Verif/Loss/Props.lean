import Verif.Loss.Lemmas
import Mathlib.Algebra.BigOperators.Fin
import Mathlib.Tactic.NormNum

/-!
# Properties of losses

* C38 `loss_add_value`, `loss_add_all_value`, `loss_add_rejects`; `loss_add_options_violated`, `simple_loss_add_violated`,
  `simple_loss_add_value_partial`
* C39 `loss_full_value`, `loss_offset_history`, `loss_offset_difference`
* C40 `loss_pairs_partial`, `loss_rejects_ranges_partial`, `nll_value`, `extended_nll_value`; `loss_length_mismatch_violated`
* C41 `chi2_value_partial`, `chi2_rejects_partial`, `chi2_invalid_method`; `chi2_expected_violated`, `chi2_retry_violated`
-/

namespace Zfit.Loss

open Zfit

variable {Θ X : Type}

/-! ## C38 -/

/-- A loss as it is obtained from the constructor with matching lists, and, for a chi2, with the default way to determine variances. -/
def Loss.Regular (l : Loss Θ X) : Prop := l.Paired ∧ l.BinsMatch ∧ (l.kind.chi2 = true → l.opts.errors = .data)

/-- The sum of two losses of the same class can be built; it is again such a loss, of the same class. Wherever both losses can be
evaluated, at whatever stage of their life, the value of the sum is the sum of the values. -/
theorem loss_add_value (l l' : Loss Θ X) (hk : l'.kind = l.kind) (h : l.Regular) (h' : l'.Regular) :
    ∃ r, l.add l' = .ok r ∧ r.Regular ∧ r.kind = l.kind ∧ r.model = l.model ++ l'.model ∧ r.data = l.data ++ l'.data
      ∧ r.constraints = l.constraints ++ l'.constraints
      ∧ ∀ θ s s' v v', (l.value s θ true).2 = .ok v → (l'.value s' θ true).2 = .ok v' → r.HasValue θ (v + v') := by
  obtain ⟨⟨h1, h2⟩, h3, h4⟩ := h
  obtain ⟨⟨h1', h2'⟩, h3', h4'⟩ := h'
  have hm : ((l.model ++ l'.model).zip (l.data ++ l'.data)).map (·.1) = l.model ++ l'.model :=
    List.map_fst_zip (by simp; omega)
  have hd : ((l.model ++ l'.model).zip (l.data ++ l'.data)).map (·.2) = l.data ++ l'.data :=
    List.map_snd_zip (by simp; omega)
  have hn : (l.fitRange ++ l'.fitRange).any (·.isSome) = false →
      ((l.model ++ l'.model).zip (l.data ++ l'.data)).map (fun _ => none) = l.fitRange ++ l'.fitRange := by
    intro hh
    apply List.ext_getElem
    · simp; omega
    · intro i hi hi'
      have := List.any_eq_false.1 hh _ (List.getElem_mem hi')
      simp only [List.getElem_map]
      simp only [Option.isSome_iff_ne_none, ne_eq, Decidable.not_not, decide_not] at this
      exact this.symm
  have hfr : fillRanges ((l.model ++ l'.model).zip (l.data ++ l'.data))
      (if (l.fitRange ++ l'.fitRange).any (·.isSome) then some (l.fitRange ++ l'.fitRange) else none) = l.fitRange ++ l'.fitRange := by
    by_cases hany : (l.fitRange ++ l'.fitRange).any (·.isSome) = true
    · simp only [hany, if_true, fillRanges]
    · simp only [Bool.not_eq_true] at hany
      simp only [hany, Bool.false_eq_true, if_false]
      exact hn hany
  refine ⟨⟨l.kind, l.model ++ l'.model, l.data ++ l'.data, l.fitRange ++ l'.fitRange, l.constraints ++ l'.constraints, {}⟩,
    ?_, ?_, rfl, rfl, rfl, rfl, ?_⟩
  · unfold Loss.add Loss.make
    simp only [hk, ne_eq, not_true_eq_false, if_false, hm, hd, hfr]
    rw [if_pos (by simp; omega)]
  · refine ⟨⟨by simp; omega, by simp; omega⟩, ?_, fun _ => rfl⟩
    intro hb p hp
    simp only [List.zip_append h1, List.mem_append] at hp
    rcases hp with hp | hp
    · exact h3 hb p hp
    · exact h3' (by rw [hk]; exact hb) p hp
  · intro θ s s' v v' hv hv'
    have e := lossFunc_of_value hv
    have e' := lossFunc_of_value hv'
    have key := lossFunc_append (l := l) (l' := l') ⟨h1, h2⟩ hk (fun hc => by rw [h4 hc, h4' (by rw [hk]; exact hc)])
      (l.fitRange ++ l'.fitRange) {} (fun hc => by rw [h4 hc]) rfl θ
    rw [e, e'] at key
    apply hasValue_of _ _ key
    · intro hb p hp
      simp only [List.zip_append h1, List.mem_append] at hp
      rcases hp with hp | hp
      · exact h3 hb p hp
      · exact h3' (by rw [hk]; exact hb) p hp
    · unfold Loss.checkChi2
      have hvar : ∀ (q : Loss Θ X), q.Paired → (q.kind.chi2 = true → q.opts.errors = .data) → ∀ w, q.lossFunc θ none = .ok w →
          q.kind.chi2 = true → ∀ d ∈ q.data, d.variances.isNone = false := by
        intro q hq hqe w hw hqc d hd
        have hmem : ∃ m, (m, d) ∈ q.model.zip q.data := by
          obtain ⟨i, hi, rfl⟩ := List.getElem_of_mem hd
          have hi' : i < q.model.length := by rw [hq.1]; exact hi
          refine ⟨q.model[i], ?_⟩
          rw [← List.getElem_zip (h := by simp; omega)]
          exact List.getElem_mem _
        obtain ⟨m, hm⟩ := hmem
        have hok : ∀ ext, (∃ x, chi2Term ext .data m d θ none = .ok x) → d.variances.isNone = false := by
          rintro ext ⟨x, hx⟩
          unfold chi2Term at hx
          obtain ⟨p, hp, hx⟩ := bind_eq_ok.1 hx
          obtain ⟨vs, hvs, hx⟩ := bind_eq_ok.1 hx
          unfold variancesOf at hvs
          rcases hdv : d.variances with _ | y
          · simp [hdv] at hvs
          · rfl
        unfold Loss.lossFunc at hw
        have hqe := hqe hqc
        rw [hqe] at hw
        cases hkk : q.kind <;> simp only [hkk, Kind.chi2, Bool.false_eq_true] at hqc hw
        · obtain ⟨sv, hs, -⟩ := bind_eq_ok.1 hw
          exact hok false (sumTerms_ok hs _ (List.mem_map.2 ⟨(m, d), hm, rfl⟩))
        · obtain ⟨sv, hs, -⟩ := bind_eq_ok.1 hw
          exact hok true (sumTerms_ok hs _ (List.mem_map.2 ⟨(m, d), hm, rfl⟩))
      by_cases hc : l.kind.chi2 = true
      · have hany : (l.data ++ l'.data).any (fun d => d.variances.isNone) = false := by
          rw [List.any_eq_false]
          intro d hd
          rcases List.mem_append.1 hd with hd | hd
          · simp [hvar l ⟨h1, h2⟩ h4 v e hc d hd]
          · simp [hvar l' ⟨h1', h2'⟩ h4' v' e' (by rw [hk]; exact hc) d hd]
        cases l.kind <;> simp [hany]
      · cases hkk : l.kind <;> simp [hkk, Kind.chi2] at hc ⊢

/-- The same for any number of losses: `l + l1 + l2 + ...`. -/
theorem loss_add_all_value (l : Loss Θ X) (ls : List (Loss Θ X)) (h : l.Regular) (hs : ∀ q ∈ ls, q.kind = l.kind ∧ q.Regular) :
    ∃ r, ls.foldlM Loss.add l = .ok r ∧ ∀ (θ : Θ) (v : ℝ) (vs : List ℝ), l.HasValue θ v →
      List.Forall₂ (fun q w => q.HasValue θ w) ls vs → r.HasValue θ (v + vs.sum) := by
  induction ls generalizing l with
  | nil =>
    refine ⟨l, rfl, fun θ v vs hv hvs => ?_⟩
    cases hvs
    simpa using hv
  | cons q qs ih =>
    obtain ⟨hqk, hq⟩ := hs q List.mem_cons_self
    obtain ⟨r, hr, hrr, hrk, -, -, -, hval⟩ := loss_add_value l q hqk h hq
    obtain ⟨t, ht, hval'⟩ := ih r hrr (fun p hp => by
      obtain ⟨a, b⟩ := hs p (List.mem_cons_of_mem _ hp)
      exact ⟨by rw [hrk, a], b⟩)
    refine ⟨t, by rw [List.foldlM_cons, hr]; exact ht, fun θ v vs hv hvs => ?_⟩
    cases hvs with
    | cons hw hws =>
      rename_i w ws
      have := hval' θ (v + w) ws (hval θ {} {} v w (hv {}) (hw {})) hws
      rw [List.sum_cons, ← add_assoc]
      exact this

/-- Losses of different classes cannot be added. -/
theorem loss_add_rejects (l l' : Loss Θ X) (hk : l'.kind ≠ l.kind) : l.add l' = .error .valueError := by
  simp [Loss.add, hk]

/-- One bin, with 4 expected events whatever the parameters. -/
def exMod : Mod Unit Unit := ⟨fun _ _ _ => 1, some fun _ => 4, fun _ => [1], some fun _ => [4]⟩

/-- Six observed events. -/
def exDat : Dat Unit := ⟨[(), ()], none, 2, 6, [6], some [6]⟩

/-- A chi2 with options. -/
def exChi2 (o : Opts) : Loss Unit Unit := ⟨.extendedBinnedChi2, [exMod], [exDat], [none], [], o⟩

example : (exChi2 {}).Regular ∧ (exChi2 {}).HasValue () ((4 - 6) ^ 2 * (6 : ℝ)⁻¹) := by
  have hb : (exChi2 {}).BinsMatch := by
    intro _ p hp
    simp only [exChi2, List.zip_cons_cons, List.zip_nil_right, List.mem_singleton] at hp
    subst hp
    refine ⟨fun _ => rfl, fun c hc => ?_, fun v hv => ?_⟩
    · simp only [exMod, Option.some.injEq] at hc; subst hc; intro; rfl
    · simp only [exDat, Option.some.injEq] at hv; subst hv; rfl
  refine ⟨⟨⟨rfl, rfl⟩, hb, fun _ => rfl⟩, hasValue_of hb ?_ ?_⟩
  · simp [Loss.checkChi2, exChi2, exDat]
  · simp [Loss.lossFunc, exChi2, exMod, exDat, sumTerms, chi2Term, expected, variancesOf, chi2Bin, addOffset, constraintSum,
      except_bind_ok, except_pure]

theorem sqrt_four_lt : Real.sqrt (4 + eps) < 3 := by
  rw [Real.sqrt_lt' (by norm_num)]
  have : eps < 1 := by
    unfold eps
    rw [zpow_neg]
    exact inv_lt_one_of_one_lt₀ (one_lt_zpow₀ (by norm_num) (by norm_num))
  linarith

theorem eps_pos : 0 < eps := by unfold eps; positivity

/-- The property fails for a chi2 with options: they are lost. Two losses of value `4 / sqrt 4` add up to one of value `2 * 4 / 6`. -/
theorem loss_add_options_violated :
    ∃ (l r : Loss Unit Unit) (v w : ℝ), l.add l = .ok r ∧ l.HasValue () v ∧ r.HasValue () w ∧ w ≠ v + v := by
  have hb : ∀ o, (exChi2 o).BinsMatch := by
    intro o _ p hp
    simp only [exChi2, List.zip_cons_cons, List.zip_nil_right, List.mem_singleton] at hp
    subst hp
    refine ⟨fun _ => rfl, fun c hc => ?_, fun v hv => ?_⟩
    · simp only [exMod, Option.some.injEq] at hc; subst hc; intro; rfl
    · simp only [exDat, Option.some.injEq] at hv; subst hv; rfl
  refine ⟨exChi2 { errors := .expected }, ⟨.extendedBinnedChi2, [exMod, exMod], [exDat, exDat], [none, none], [], {}⟩,
    (4 - 6) ^ 2 * (Real.sqrt (4 + eps))⁻¹, (4 - 6) ^ 2 * 6⁻¹ + (4 - 6) ^ 2 * 6⁻¹, ?_, ?_, ?_, ?_⟩
  · rfl
  · apply hasValue_of (hb _)
    · simp [Loss.checkChi2, exChi2, exDat]
    · simp [Loss.lossFunc, exChi2, exMod, exDat, sumTerms, chi2Term, expected, variancesOf, chi2Bin, addOffset, constraintSum,
        except_bind_ok, except_pure]
  · apply hasValue_of
    · intro _ p hp
      have := hb {} rfl p
      simp only [exChi2, List.zip_cons_cons, List.zip_nil_right, List.mem_cons, List.not_mem_nil, or_false, or_self] at hp this
      exact this hp
    · simp [Loss.checkChi2, exDat]
    · simp [Loss.lossFunc, exMod, exDat, sumTerms, chi2Term, expected, variancesOf, chi2Bin, addOffset, constraintSum,
        except_bind_ok, except_pure]
  · have h3 := sqrt_four_lt
    have h0 : 0 < Real.sqrt (4 + eps) := Real.sqrt_pos.2 (by have := eps_pos; linarith)
    have : (3 : ℝ)⁻¹ < (Real.sqrt (4 + eps))⁻¹ := by
      rw [inv_lt_inv₀ (by norm_num) h0]; exact h3
    intro hc
    norm_num at hc this
    linarith

/-- The sum of a `SimpleLoss` and another loss can never be evaluated if a parameter has a name that does not consist of two
characters. -/
theorem simple_loss_add_violated (params selfnames othernames : List String) (f g : List (String × String) → Except Err ℝ) (c : ℝ)
    (h : ∃ n ∈ params, n.toList.length ≠ 2) : simpleAddValue params selfnames othernames f g c = .error .valueError := by
  have : params.mapM unpackTwo = .error .valueError := by
    obtain ⟨n, hn, hl⟩ := h
    induction params with
    | nil => simp at hn
    | cons p ps ih =>
      rw [List.mapM_cons]
      have hp : (∃ q, unpackTwo p = .ok q ∧ p.toList.length = 2) ∨ unpackTwo p = .error .valueError := by
        unfold unpackTwo
        split
        · rename_i a b hab; exact .inl ⟨_, rfl, by rw [hab]; rfl⟩
        · exact .inr rfl
      rcases hp with ⟨q, hq, hlen⟩ | hp
      · rcases List.mem_cons.1 hn with rfl | hn
        · exact absurd hlen hl
        · rw [hq, except_bind_ok, ih hn]; rfl
      · rw [hp]; rfl
  unfold simpleAddValue paramsSelf
  rw [this]
  rfl

/-- If the sum of a `SimpleLoss` and another loss has a value, it is the value of the first plus the one of the second, scaled to the error
definition of the first. (The parameters the first one is evaluated with are wrong: one-letter names.) Missing from the full claim: the
cases of `loss_add_options_violated`, `simple_loss_add_violated`. -/
theorem simple_loss_add_value_partial (params selfnames othernames : List String) (f g : List (String × String) → Except Err ℝ) (c r : ℝ)
    (h : simpleAddValue params selfnames othernames f g c = .ok r) :
    ∃ ps v w, f ps = .ok v ∧ g ((params.filter (· ∈ othernames)).map (fun n => (n, n))) = .ok w ∧ r = v + c * w := by
  unfold simpleAddValue at h
  obtain ⟨ps, -, h⟩ := bind_eq_ok.1 h
  obtain ⟨v, hv, h⟩ := bind_eq_ok.1 h
  obtain ⟨w, hw, h⟩ := bind_eq_ok.1 h
  exact ⟨ps, v, w, hv, hw, (Except.ok.inj h).symm⟩

example : simpleAddValue ["mu"] ["mu"] [] (fun _ => .ok 1) (fun _ => .ok 2) 1 = .ok 3 := by
  have : paramsSelf ["mu"] ["mu"] = .ok [] := by decide
  simp only [simpleAddValue, this, except_bind_ok, except_pure]
  norm_num

/-- The letters of a name of two letters are taken for name and parameter. -/
example : paramsSelf ["mu"] ["m"] = .ok [("m", "u")] := by decide

/-! ## C39 -/

/-- What `value(full=True)` returns never depends on the constant: it is the same after any history, for any setting of the option. -/
theorem loss_full_value (l l' : Loss Θ X) (s s' : State) (θ : Θ) (v v' : ℝ) (hl : l' = { l with opts := l'.opts })
    (he : l'.opts.errors = l.opts.errors) (h : (l.value s θ true).2 = .ok v) (h' : (l'.value s' θ true).2 = .ok v') : v = v' := by
  have e := lossFunc_of_value h
  have e' := lossFunc_of_value h'
  have : l'.lossFunc θ none = l.lossFunc θ none := by
    rw [hl]; unfold Loss.lossFunc; simp only [he]
  rw [this, e] at e'
  exact Except.ok.inj e'

theorem value_precompiled (l : Loss Θ X) (s : State) (θ : Θ) (f : Bool) (h : s.precompiled = true) :
    l.value s θ f = (s, l.lossFunc θ (if f then none else s.offset)) := by
  simp [Loss.value, Loss.precompile, h]

/-- In every history of evaluations, in whatever points and with `full=True` or not, there is one constant such that every value returned
is the full value in that point, plus the constant if not `full`. -/
theorem loss_offset_history (l : Loss Θ X) (h : l.BinsMatch) (s : State) (calls : List (Θ × Bool)) :
    ∃ c : ℝ, ∀ (k : Nat) (θ : Θ) (full : Bool) (v : ℝ), calls[k]? = some (θ, full) → (l.history s calls)[k]? = some (.ok v) →
      l.lossFunc θ none = .ok (v - if full then 0 else c) := by
  have pre : ∀ (s : State), s.precompiled = true → ∃ c : ℝ, ∀ (calls : List (Θ × Bool)) (k : Nat) (θ : Θ) (full : Bool) (v : ℝ),
      calls[k]? = some (θ, full) → (l.history s calls)[k]? = some (.ok v) → l.lossFunc θ none = .ok (v - if full then 0 else c) := by
    intro s hs
    have key : ∃ c : ℝ, ∀ θ full v, (l.value s θ full).2 = .ok v → l.lossFunc θ none = .ok (v - if full then 0 else c) := by
      rcases ho : s.offset with _ | o
      · refine ⟨0, fun θ full v hv => ?_⟩
        rw [value_precompiled l s θ full hs, ho] at hv
        cases full <;> simpa using hv
      · obtain ⟨c, hc⟩ := lossFunc_shift l h o
        refine ⟨c, fun θ full v hv => ?_⟩
        rw [value_precompiled l s θ full hs, ho] at hv
        cases full
        · simp only [Bool.false_eq_true, if_false, hc θ] at hv ⊢
          rcases hl : l.lossFunc θ none with e | w
          · rw [hl] at hv; simp [Except.map] at hv
          · rw [hl] at hv
            simp only [Except.map, Except.ok.injEq] at hv ⊢
            linarith
        · simpa using hv
    obtain ⟨c, hc⟩ := key
    refine ⟨c, fun calls => ?_⟩
    induction calls with
    | nil => intro k θ full v hk; simp at hk
    | cons x xs ih =>
      obtain ⟨θ', full'⟩ := x
      intro k θ full v hk hh
      rw [Loss.history] at hh
      rcases k with _ | k
      · simp only [List.getElem?_cons_zero, Option.some.injEq, Prod.mk.injEq] at hk hh
        obtain ⟨rfl, rfl⟩ := hk
        exact hc _ _ _ hh
      · simp only [List.getElem?_cons_succ] at hk hh
        rw [value_precompiled l s θ' full' hs] at hh
        exact ih k θ full v hk hh
  induction calls generalizing s with
  | nil => exact ⟨0, fun k θ full v hk => by simp at hk⟩
  | cons x xs ih =>
    obtain ⟨θ', full'⟩ := x
    by_cases hs : s.precompiled = true
    · obtain ⟨c, hc⟩ := pre s hs
      exact ⟨c, hc _⟩
    · rcases hf : l.findOffset s θ' with e | o
      · have hv : l.value s θ' full' = (s, .error e) := by simp [Loss.value, Loss.precompile, hs, hf]
        obtain ⟨c, hc⟩ := ih s
        refine ⟨c, fun k θ full v hk hh => ?_⟩
        rw [Loss.history, hv] at hh
        rcases k with _ | k
        · simp at hh
        · exact hc k θ full v (by simpa using hk) (by simpa using hh)
      · obtain ⟨c, hc⟩ := pre ⟨true, o⟩ rfl
        have hstate : (l.value s θ' full').1 = ⟨true, o⟩ := by
          simp only [Loss.value, Loss.precompile, hs, hf]
          rcases l.checkChi2 with e | u <;> rfl
        refine ⟨c, fun k θ full v hk hh => ?_⟩
        rw [Loss.history, hstate] at hh
        rcases k with _ | k
        · simp only [List.getElem?_cons_zero, Option.some.injEq, Prod.mk.injEq] at hk hh
          obtain ⟨rfl, rfl⟩ := hk
          apply hc [(θ', full')] 0 θ' full' v rfl
          rw [Loss.history, value_precompiled l ⟨true, o⟩ θ' full' rfl]
          simp only [Loss.value, Loss.precompile, hs, hf] at hh
          rcases hcc : l.checkChi2 with e | u
          · simp [hcc] at hh
          · simp only [hcc] at hh
            simpa using hh
        · exact hc xs k θ full v (by simpa using hk) (by simpa using hh)

/-- Differences of values without `full` are the differences of full values. -/
theorem loss_offset_difference (l : Loss Θ X) (h : l.BinsMatch) (s : State) (calls : List (Θ × Bool)) (i j : Nat) (θ θ' : Θ)
    (v v' w w' : ℝ) (hi : calls[i]? = some (θ, false)) (hj : calls[j]? = some (θ', false))
    (hv : (l.history s calls)[i]? = some (.ok v)) (hv' : (l.history s calls)[j]? = some (.ok v'))
    (hw : l.HasValue θ w) (hw' : l.HasValue θ' w') : v - v' = w - w' := by
  obtain ⟨c, hc⟩ := loss_offset_history l h s calls
  have a := hc i θ false v hi hv
  have b := hc j θ' false v' hj hv'
  rw [lossFunc_of_value (hw {})] at a
  rw [lossFunc_of_value (hw' {})] at b
  simp only [Bool.false_eq_true, if_false, Except.ok.injEq] at a b
  linarith

/-- A likelihood of two events with an automatic constant: the first evaluation is `10000` plus... whatever, but a value it is. -/
example : ∃ v, ((⟨.unbinnedNLL, [exMod], [exDat], [none], [], {}⟩ : Loss Unit Unit).history {} [((), false), ((), true)])[0]? = some (.ok v) := by
  simp [Loss.history, Loss.value, Loss.precompile, Loss.findOffset, Loss.lossFunc, Loss.checkChi2, except_bind_ok, except_pure]

/-! ## C40 -/

theorem sumTerms_fin {P : Type} (l : List P) (f : P → Except Err ℝ) (g : Fin l.length → ℝ) (h : ∀ i : Fin l.length, f l[i] = .ok (g i)) :
    sumTerms (l.map f) = .ok (∑ i, g i) := by
  induction l with
  | nil => simp [sumTerms_nil]
  | cons x xs ih =>
    rw [List.map_cons, sumTerms_cons]
    have h0 := h ⟨0, by simp⟩
    simp only [Fin.getElem_fin, List.getElem_cons_zero] at h0
    have := ih (fun i => g i.succ) (fun i => by have := h i.succ; simpa using this)
    rw [h0, this]
    exact congrArg Except.ok (Fin.sum_univ_succ (n := xs.length) g).symm

/-- Equally many models and data (and fit ranges) are paired by position. Missing from the full claim: the cases of
`loss_length_mismatch_violated`. -/
theorem loss_pairs_partial (k : Kind) (ms : List (Mod Θ X)) (ds : List (Dat X)) (r : Option (List (Option (Range X))))
    (cs : List (Constr Θ)) (o : Opts) (h : ms.length = ds.length) (hr : ∀ x, r = some x → x.length = ds.length) :
    ∃ l, Loss.make k ms ds r cs o = .ok l ∧ l.Paired ∧ l.model = ms ∧ l.data = ds ∧ l.constraints = cs
      ∧ (∀ x, r = some x → l.fitRange = x) ∧ (r = none → ∀ y ∈ l.fitRange, y = none) := by
  have hm : (ms.zip ds).map (·.1) = ms := List.map_fst_zip (by omega)
  have hd : (ms.zip ds).map (·.2) = ds := List.map_snd_zip (by omega)
  unfold Loss.make
  simp only [hm, hd, fillRanges]
  rcases r with _ | x
  · refine ⟨_, if_pos ⟨h, by simp; omega⟩, ⟨h, by simp; omega⟩, rfl, rfl, rfl, by simp, ?_⟩
    simp
  · refine ⟨_, if_pos ⟨h, (hr x rfl).symm⟩, ⟨h, hr x rfl⟩, rfl, rfl, rfl, by simp, by simp⟩

/-- The number of fit ranges has to be the number of pairs. Missing from the full claim: the cases of `loss_length_mismatch_violated`. -/
theorem loss_rejects_ranges_partial (k : Kind) (ms : List (Mod Θ X)) (ds : List (Dat X)) (x : List (Option (Range X)))
    (cs : List (Constr Θ)) (o : Opts) (h : x.length ≠ min ms.length ds.length) :
    Loss.make k ms ds (some x) cs o = .error .valueError := by
  unfold Loss.make
  simp only [List.length_map, List.length_zip, true_and, fillRanges]
  rw [if_neg (by omega)]

/-- One term of a likelihood: the sum over the events inside the range, with their weights. -/
theorem nllTerm_value (m : Mod Θ X) (d : Dat X) (r : Option (Range X)) (θ : Θ)
    (hw : ∀ w, d.weights = some w → w.length = d.points.length) :
    nllTerm m d r θ none = -((d.events.filter (inside r)).map (fun e => e.2 * Real.log (m.pdf r θ e.1 + eps))).sum := by
  obtain ⟨f, hf⟩ : ∃ f : X → ℝ, f = fun x => Real.log (m.pdf r θ x + eps) := ⟨_, rfl⟩
  unfold nllTerm Dat.cut nllCalc Dat.events
  simp only [← hf, show ∀ x, Real.log (m.pdf r θ x + eps) = f x from fun x => by rw [hf]]
  rcases hwd : d.weights with _ | w
  · rcases r with _ | r
    · have : (d.points.map (fun x => (x, (1 : ℝ)))).filter (inside (none : Option (Range X))) = d.points.map (fun x => (x, 1)) :=
        List.filter_eq_self.2 (fun _ _ => rfl)
      simp only [this, List.map_map]
      congr 2
      apply List.map_congr_left
      intro x _; simp
    · simp only [Option.map_none]
      rw [List.filter_map, List.map_map]
      congr 2
      rw [show (inside (some r) ∘ fun x => ((x, 1) : X × ℝ)) = r from rfl]
      apply List.map_congr_left
      intro x _; simp
  · have hlen := hw w hwd
    clear hwd hw
    rcases r with _ | r
    · simp only
      have : (d.points.zip w).filter (inside (none : Option (Range X))) = d.points.zip w := List.filter_eq_self.2 (fun _ _ => rfl)
      rw [this]
      congr 1
      generalize d.points = ps at hlen
      clear hf this
      induction ps generalizing w with
      | nil => simp
      | cons p ps ih =>
        rcases w with _ | ⟨v, w⟩
        · simp at hlen
        · simp only [List.map_cons, List.zipWith_cons_cons, List.sum_cons, List.zip_cons_cons]
          rw [ih w (by simpa using hlen)]; ring
    · simp only [Option.map_some]
      congr 1
      generalize d.points = ps at hlen
      clear hf
      induction ps generalizing w with
      | nil => simp
      | cons p ps ih =>
        rcases w with _ | ⟨v, w⟩
        · simp at hlen
        · have := ih w (by simpa using hlen)
          by_cases hr : r p = true
          · simp only [List.zip_cons_cons, List.filter_cons, hr, inside, if_true, List.map_cons, List.zipWith_cons_cons, List.sum_cons]
            rw [this]; ring
          · simp only [List.zip_cons_cons, List.filter_cons, hr, inside, Bool.false_eq_true, if_false]
            exact this

/-- The value of a likelihood: the `i`-th model is evaluated on the `i`-th dataset, on the events inside the `i`-th fit range (if there is
one; the model is then normalised to it), each event counting with its own weight. -/
theorem nll_value (ms : List (Mod Θ X)) (ds : List (Dat X)) (r : Option (List (Option (Range X)))) (cs : List (Constr Θ)) (o : Opts)
    (h : ms.length = ds.length) (hw : ∀ d ∈ ds, ∀ w, d.weights = some w → w.length = d.points.length)
    (hr : ∀ x, r = some x → x.length = ds.length)
    (l : Loss Θ X) (hl : Loss.make .unbinnedNLL ms ds r cs o = .ok l) (θ : Θ) :
    let range (i : Fin ms.length) : Option (Range X) := (r.bind (·[i.val]?)).getD none
    l.HasValue θ ((∑ i : Fin ms.length,
        -((ds[i].events.filter (inside (range i))).map (fun e => e.2 * Real.log (ms[i].pdf (range i) θ e.1 + eps))).sum)
      + (cs.map (·.value θ)).sum) := by
  intro range
  obtain ⟨l', hl', hp, hm, hd, hcs, hfr, hfn⟩ := loss_pairs_partial .unbinnedNLL ms ds r cs o h hr
  rw [hl] at hl'
  obtain rfl := Except.ok.inj hl'
  have hk : l.kind = .unbinnedNLL := by
    unfold Loss.make at hl
    simp only at hl
    split at hl
    · rw [← Except.ok.inj hl]
    · cases hl
  apply hasValue_of
  · intro hb; simp [Kind.binned, hk] at hb
  · simp [Loss.checkChi2, hk]
  · simp only [Loss.lossFunc, constraintSum, hk, Except.ok.injEq, hcs]
    congr 1
    rw [← List.sum_ofFn]
    congr 1
    have hfl := hp.2
    rw [hd] at hfl
    apply List.ext_getElem
    · simp [hm, hd]; omega
    · intro i hi hi'
      have hid : i < ds.length := by simp at hi'; omega
      have hif : i < l.fitRange.length := by omega
      have hrange : l.fitRange[i] = (r.bind (·[i]?)).getD none := by
        rcases r with _ | x
        · simpa using hfn rfl _ (List.getElem_mem hif)
        · have := hfr x rfl
          simp only [this]
          have : i < x.length := by rw [hr x rfl]; exact hid
          simp [this]
      simp only [List.getElem_map, List.getElem_zip, List.getElem_ofFn, Fin.getElem_fin, hm, hd, range, ← hrange]
      exact nllTerm_value _ _ _ θ (hw _ (List.getElem_mem hid))

/-- The extended likelihood adds, for every dataset, the Poisson term of the number of events for the yield: `y - n log y`, up to a constant
that depends only on the data. -/
theorem extended_nll_value (l l' : Loss Θ X) (hk : l.kind = .unbinnedNLL) (hl' : l' = { l with kind := .extendedUnbinnedNLL })
    (hp : l.Paired) (θ : Θ) (v : ℝ) (hv : l.HasValue θ v) (y : Fin l.data.length → Θ → ℝ)
    (hy : ∀ i : Fin l.data.length, (l.model[i.val]'(by rw [hp.1]; exact i.isLt)).yield = some (y i)) (hpos : ∀ i, 0 < y i θ) :
    l'.HasValue θ (v + ∑ i : Fin l.data.length,
      (y i θ - l.data[i].samplesize * Real.log (y i θ) + stirling l.data[i].samplesize)) := by
  have hv' := lossFunc_of_value (hv {})
  subst hl'
  apply hasValue_of
  · intro hb; simp [Kind.binned] at hb
  · simp [Loss.checkChi2]
  · have hlen : (l.model.zip l.data).length = l.data.length := by simp [hp.1]
    have := sumTerms_fin (l.model.zip l.data) (fun p => extTerm p.1 p.2 θ none)
      (fun i => y (Fin.cast hlen i) θ - l.data[(Fin.cast hlen i)].samplesize * Real.log (y (Fin.cast hlen i) θ)
        + stirling l.data[(Fin.cast hlen i)].samplesize) ?_
    · simp only [Loss.lossFunc, hk, Except.ok.injEq] at hv'
      simp only [Loss.lossFunc]
      rw [this, except_bind_ok, except_pure]
      congr 1
      have e : constraintSum .extendedUnbinnedNLL l.constraints θ none = constraintSum .unbinnedNLL l.constraints θ none := rfl
      rw [e, hv']
      congr 1
      exact Fintype.sum_equiv (finCongr hlen) _ _ (fun i => rfl)
    · intro i
      have hii : i.val < l.data.length := by have := i.isLt; omega
      have := hy ⟨i.val, hii⟩
      simp only [Fin.getElem_fin, List.getElem_zip, extTerm, Fin.val_cast]
      rw [this]
      simp only [addOffset, logPoissonLoss, Option.isNone_none, if_true]
      rw [Real.exp_log (hpos _)]
      simp only [Fin.cast]
      congr 1
      ring

/-- An extended likelihood of two weighted events, one of them inside the range. -/
example : ∃ (d : Dat ℕ), d.events.filter (inside (some (fun n => decide (n < 5)))) = [(1, 2)] :=
  ⟨⟨[1, 7], some [2, 3], 5, 2, [], none⟩, by simp [Dat.events, inside]⟩

/-- Without fit ranges no list of models and data is ever rejected: what has no partner is silently dropped. -/
theorem loss_length_mismatch_violated (k : Kind) (ms : List (Mod Θ X)) (ds : List (Dat X)) (cs : List (Constr Θ)) (o : Opts) :
    ∃ l, Loss.make k ms ds none cs o = .ok l ∧ l.model = ms.take ds.length ∧ l.data = ds.take ms.length := by
  unfold Loss.make
  refine ⟨_, if_pos ⟨by simp, by simp [fillRanges]⟩, ?_, ?_⟩
  · simp only
    apply List.ext_getElem
    · simp; omega
    · intro i h1 h2; simp
  · simp only
    apply List.ext_getElem
    · simp
    · intro i h1 h2; simp

/-- Two models, one dataset: the second model is forgotten. -/
example : ∃ l, Loss.make .unbinnedNLL [exMod, exMod] [exDat] none [] {} = .ok l ∧ l.model.length = 1 :=
  ⟨_, rfl, rfl⟩

/-! ## C41 -/

theorem sum_zip3 (p v w : List ℝ) (f : ℝ × ℝ × ℝ → ℝ) (hp : p.length = v.length) (hw : w.length = v.length) :
    ((List.zip p (List.zip v w)).map f).sum = ∑ b : Fin v.length, f (p.getD b 0, v[b], w.getD b 0) := by
  rw [← List.sum_ofFn]
  congr 1
  apply List.ext_getElem
  · simp; omega
  · intro i h1 h2
    have hi : i < v.length := by simpa using h2
    simp [List.getD_eq_getElem?_getD, hp, hw, hi]

/-- The value of a chi2 with variances from the data: the sum over datasets and bins of the squared difference divided by the variance,
bins of zero variance not counted. `ex` are the expected and `va` the variances of the datasets. Missing from the full claim: the cases of
`chi2_expected_violated`, `chi2_retry_violated`. -/
theorem chi2_value_partial (l : Loss Θ X) (hk : l.kind.chi2 = true) (hp : l.Paired) (hb : l.BinsMatch) (he : l.opts.errors = .data)
    (hi : l.opts.ignoreEmpty = true) (θ : Θ) (ex va : Fin l.data.length → List ℝ)
    (hex : ∀ i : Fin l.data.length,
      expected (decide (l.kind = .extendedBinnedChi2)) (l.model[i.val]'(by rw [hp.1]; exact i.isLt)) l.data[i] θ = .ok (ex i))
    (hva : ∀ i : Fin l.data.length, l.data[i].variances = some (va i)) :
    l.HasValue θ ((∑ i : Fin l.data.length, ∑ b : Fin (l.data[i].values.length),
        if (va i).getD b 0 = 0 then 0 else ((ex i).getD b 0 - l.data[i].values[b]) ^ 2 / (va i).getD b 0)
      + (l.constraints.map (·.value θ)).sum) := by
  have hb' : ∀ p ∈ l.model.zip l.data, CountsMatch p.1 p.2 := hb (by cases hkk : l.kind <;> simp_all [Kind.chi2, Kind.binned])
  have hlen : (l.model.zip l.data).length = l.data.length := by simp [hp.1]
  have hterm : ∀ ext, ext = decide (l.kind = .extendedBinnedChi2) →
      sumTerms ((l.model.zip l.data).map (fun p => chi2Term ext .data p.1 p.2 θ none)) = .ok (∑ i : Fin l.data.length,
        ∑ b : Fin (l.data[i].values.length),
          if (va i).getD b 0 = 0 then 0 else ((ex i).getD b 0 - l.data[i].values[b]) ^ 2 / (va i).getD b 0) := by
    intro ext hext
    have := sumTerms_fin (l.model.zip l.data) (fun p => chi2Term ext .data p.1 p.2 θ none)
      (fun i => ∑ b : Fin (l.data[(Fin.cast hlen i)].values.length),
          if (va (Fin.cast hlen i)).getD b 0 = 0 then 0
          else ((ex (Fin.cast hlen i)).getD b 0 - l.data[(Fin.cast hlen i)].values[b]) ^ 2 / (va (Fin.cast hlen i)).getD b 0) ?_
    · rw [this]
      congr 1
      exact Fintype.sum_equiv (finCongr hlen) _ _ (fun i => rfl)
    · intro i
      have hii : i.val < l.data.length := by have := i.isLt; omega
      have hii' : i.val < l.model.length := by rw [hp.1]; exact hii
      have hget : (l.model.zip l.data)[i] = (l.model[i.val], l.data[i.val]) := by
        simp only [Fin.getElem_fin, List.getElem_zip]
      have hcm := hb' _ (List.getElem_mem i.isLt)
      simp only [List.getElem_zip] at hcm
      have hx := hex (Fin.cast hlen i)
      have hv := hva (Fin.cast hlen i)
      simp only [Fin.getElem_fin, Fin.val_cast] at hx hv
      rw [hget]
      simp only [chi2Term, hext, hx, variancesOf, hv, except_bind_ok, except_pure, Except.ok.injEq, Fin.getElem_fin, Fin.val_cast]
      rw [sum_zip3 _ _ _ _ (expected_length hcm _ θ _ hx) (hcm.2.2 _ hv)]
      apply Finset.sum_congr rfl
      intro b _
      simp only [chi2Bin, addOffset, Fin.getElem_fin]
      by_cases h0 : (va (Fin.cast hlen i)).getD b 0 = 0
      · rw [if_pos h0, h0]; simp
      · rw [if_neg h0, div_eq_mul_inv]
  apply hasValue_of hb
  · unfold Loss.checkChi2
    have : l.data.any (fun d => d.variances.isNone) = false := by
      rw [List.any_eq_false]
      intro d hd
      obtain ⟨i, hi, rfl⟩ := List.getElem_of_mem hd
      have := hva ⟨i, hi⟩
      simp only [Fin.getElem_fin] at this
      simp [this]
    cases l.kind <;> simp [this, hi]
  · unfold Loss.lossFunc
    cases hkk : l.kind <;> simp only [hkk, Kind.chi2, Bool.false_eq_true] at hk
    · simp only [he, hterm false (by simp [hkk]), except_bind_ok, except_pure, constraintSum]
      simp
    · simp only [he, hterm true (by simp [hkk]), except_bind_ok, except_pure, constraintSum]
      simp

/-- The first evaluation of a chi2 is rejected if variances are missing, or if a variance is not positive and empty bins are neither
ignored nor irrelevant. -/
theorem chi2_rejects_partial (l : Loss Θ X) (hk : l.kind.chi2 = true) (θ : Θ) (full : Bool) (s : State) (hs : s.precompiled = false)
    (h : (∃ d ∈ l.data, d.variances = none) ∨
      (∃ d ∈ l.data, ∃ v, d.variances = some v ∧ ∃ x ∈ v, x ≤ 0) ∧ l.opts.ignoreEmpty = false ∧ l.opts.errors ≠ .expected) :
    ∃ e, (l.value s θ full).2 = .error e := by
  have hc : l.checkChi2 = .error .valueError := by
    unfold Loss.checkChi2
    by_cases hany : l.data.any (fun d => d.variances.isNone) = true
    · cases hkk : l.kind <;> simp only [hkk, Kind.chi2, Bool.false_eq_true] at hk ⊢ <;> rw [if_pos hany]
    · rcases h with ⟨d, hd, hn⟩ | ⟨⟨d, hd, v, hv, x, hx, hx0⟩, hi, he⟩
      · exact absurd (List.any_eq_true.2 ⟨d, hd, by simp [hn]⟩) hany
      · have hcond : (∃ d ∈ l.data, ∃ v ∈ d.variances.getD [], v ≤ 0) ∧
            ¬ ((l.opts.ignoreEmpty || decide (l.opts.errors = .expected)) = true) :=
          ⟨⟨d, hd, x, by rw [hv]; exact hx, hx0⟩, by simp [hi, he]⟩
        cases hkk : l.kind <;> simp only [hkk, Kind.chi2, Bool.false_eq_true] at hk ⊢ <;> rw [if_neg hany, if_pos hcond]
  unfold Loss.value Loss.precompile
  simp only [hs, Bool.false_eq_true, if_false]
  rcases l.findOffset s θ with e | o
  · exact ⟨e, rfl⟩
  · exact ⟨.valueError, by simp only [hc]⟩

/-- An unknown method for the variances never gives a value (unless there is no data). -/
theorem chi2_invalid_method (l : Loss Θ X) (hk : l.kind.chi2 = true) (hp : l.Paired) (hd : l.data ≠ []) (he : l.opts.errors = .other)
    (s : State) (θ : Θ) (full : Bool) : ∃ e, (l.value s θ full).2 = .error e := by
  have hterm : ∀ o v, l.lossFunc θ o ≠ .ok v := by
    intro o v hv
    obtain ⟨d, ds, hdd⟩ := List.exists_cons_of_ne_nil hd
    obtain ⟨m, ms, hmm⟩ := List.exists_cons_of_ne_nil (l := l.model) (by
      intro h0; have := hp.1; rw [h0, hdd] at this; simp at this)
    have hno : ∀ ext w, sumTerms ((l.model.zip l.data).map (fun p => chi2Term ext .other p.1 p.2 θ o)) ≠ .ok w := by
      intro ext w hw
      obtain ⟨x, hx⟩ := sumTerms_ok hw (chi2Term ext .other m d θ o) (by rw [hmm, hdd]; simp)
      unfold chi2Term at hx
      obtain ⟨p, hp, hx⟩ := bind_eq_ok.1 hx
      obtain ⟨y, hy, hx⟩ := bind_eq_ok.1 hx
      simp [variancesOf] at hy
    unfold Loss.lossFunc at hv
    cases hkk : l.kind <;> simp only [hkk, Kind.chi2, Bool.false_eq_true] at hk hv
    · obtain ⟨w, hw, -⟩ := bind_eq_ok.1 hv
      rw [he] at hw
      exact hno false w hw
    · obtain ⟨w, hw, -⟩ := bind_eq_ok.1 hv
      rw [he] at hw
      exact hno true w hw
  unfold Loss.value
  split
  · exact ⟨_, rfl⟩
  · rename_i s' _
    rcases hv : l.lossFunc θ (if full then none else s'.offset) with e | v
    · exact ⟨e, rfl⟩
    · exact absurd hv (hterm _ v)

/-- With `errors="expected"` the variance is not the expected number of events (4), the value would be 1: it is the square root. -/
theorem chi2_expected_violated :
    ∃ v, (exChi2 { errors := .expected }).HasValue () v ∧ v ≠ ((4 : ℝ) - 6) ^ 2 / 4 := by
  have hb : ∀ o, (exChi2 o).BinsMatch := by
    intro o _ p hp
    simp only [exChi2, List.zip_cons_cons, List.zip_nil_right, List.mem_singleton] at hp
    subst hp
    refine ⟨fun _ => rfl, fun c hc => ?_, fun v hv => ?_⟩
    · simp only [exMod, Option.some.injEq] at hc; subst hc; intro; rfl
    · simp only [exDat, Option.some.injEq] at hv; subst hv; rfl
  refine ⟨(4 - 6) ^ 2 * (Real.sqrt (4 + eps))⁻¹, hasValue_of (hb _) ?_ ?_, ?_⟩
  · simp [Loss.checkChi2, exChi2, exDat]
  · simp [Loss.lossFunc, exChi2, exMod, exDat, sumTerms, chi2Term, expected, variancesOf, chi2Bin, addOffset, constraintSum,
      except_bind_ok, except_pure]
  · have h3 := sqrt_four_lt
    have h0 : 0 < Real.sqrt (4 + eps) := Real.sqrt_pos.2 (by have := eps_pos; linarith)
    have : (3 : ℝ)⁻¹ < (Real.sqrt (4 + eps))⁻¹ := by
      rw [inv_lt_inv₀ (by norm_num) h0]; exact h3
    intro hc
    norm_num at hc this
    linarith

/-- The check of the variances happens only once: for every chi2 whose expected counts can be computed, the evaluation that is rejected
for a variance that is not positive is not rejected if it is simply repeated (the floating point result is then infinite or not a number). -/
theorem chi2_retry_violated (l : Loss Θ X) (θ : Θ) (full : Bool) (v : ℝ) (o : Option ℝ) (e : Err)
    (ho : l.findOffset {} θ = .ok o) (hv : l.lossFunc θ (if full then none else o) = .ok v) (hc : l.checkChi2 = .error e) :
    l.history {} [(θ, full), (θ, full)] = [.error e, .ok v] := by
  simp [Loss.history, Loss.value, Loss.precompile, ho, hc, hv]

/-- Such a chi2: a bin with zero variance, empty bins not to be ignored. -/
example : (⟨.extendedBinnedChi2, [exMod], [{ exDat with variances := some [0] }], [none], [],
      { ignoreEmpty := false, subtr := .no }⟩ : Loss Unit Unit).checkChi2 = .error .valueError ∧
    ∃ v, (⟨.extendedBinnedChi2, [exMod], [{ exDat with variances := some [0] }], [none], [],
      { ignoreEmpty := false, subtr := .no }⟩ : Loss Unit Unit).lossFunc () none = .ok v := by
  constructor
  · simp [Loss.checkChi2]
  · simp [Loss.lossFunc, exMod, exDat, sumTerms, chi2Term, expected, variancesOf, except_bind_ok, except_pure]

end Zfit.Loss
