import Verif.Own.IntegralModel
import Verif.Own.CallProps

/-!
# C232, C233: what a registered integral gets and gives
-/

namespace Zfit.Own

open Zfit

variable {R : Type}

/-! ## What is meant -/

/-- The arguments a registered function may have. -/
def integralArguments : List String := ["x", "limits", "norm", "norm_range", "params", "model"]

/-- A function with arguments in any order, by position or keyword only, all required: `limits` and `model`, and possibly `x`, `params` and
one of `norm` and `norm_range`. -/
structure Documented (s : Sig) : Prop where
  required : ∀ p ∈ s.pos ++ s.kws, p.default = none
  known : ∀ n ∈ s.names, n ∈ integralArguments
  limits : "limits" ∈ s.names
  model : "model" ∈ s.names
  one : ¬ ("norm" ∈ s.names ∧ "norm_range" ∈ s.names)

/-- What is asked for, by the name of the argument. -/
def asked (x limits norm params model : Val) : String → Val
  | "x" => x
  | "limits" => limits
  | "norm" => norm
  | "norm_range" => norm
  | "params" => params
  | "model" => model
  | _ => .none

/-- The norm that is handed on: a space without limits is `False` for a function that does not support norms. -/
def handed (supported : Bool) : Val → Val
  | .space s => if supported then .space s else .false
  | v => v

/-- Whether a norm may be handed to a function: always if it supports norms, otherwise only if there is none. -/
def allowed (supported : Bool) : Val → Bool
  | .none => true
  | .false => true
  | .space s => supported || s.noLimits
  | _ => supported

/-! ## Calls by keyword -/

theorem mapM_bindPar_ok (kw : Env) (v : String → Val) (l : List Par) (h : ∀ p ∈ l, dictGet kw p.name = some (v p.name)) :
    l.mapM (bindPar kw) = .ok (l.map fun p => (p.name, v p.name)) := by
  induction l with
  | nil => rfl
  | cons p l ih =>
    rw [List.mapM_cons, ih fun q hq => h q (List.mem_cons_of_mem _ hq)]
    unfold bindPar
    rw [h p List.mem_cons_self]
    rfl

theorem mapM_bindPar_missing (kw : Env) (l : List Par) (hreq : ∀ p ∈ l, p.default = none) (p : Par) (hp : p ∈ l)
    (h : dictGet kw p.name = none) : l.mapM (bindPar kw) = .error (.raised .typeError) := by
  have key : ∀ q : Par, q.default = none → (∃ u, bindPar kw q = .ok u) ∨ bindPar kw q = .error (.raised .typeError) := by
    intro q hq
    unfold bindPar
    cases dictGet kw q.name with
    | none => simp [hq]
    | some v => simp
  induction l with
  | nil => cases hp
  | cons q l ih =>
    rw [List.mapM_cons]
    rcases key q (hreq q List.mem_cons_self) with ⟨u, hu⟩ | he
    · rw [hu]
      rcases List.mem_cons.1 hp with rfl | hp'
      · unfold bindPar at hu
        rw [h, hreq p List.mem_cons_self] at hu
        cases hu
      · rw [ih (fun q hq => hreq q (List.mem_cons_of_mem _ hq)) hp']
        rfl
    · rw [he]
      rfl

theorem given_nil (s : Sig) (kw : Env) : given s ⟨[], kw⟩ = kw := by simp [given]

theorem findSome_fault_none (s : Sig) (kw : Env) (h : ∀ kv ∈ kw, kv.1 ∈ s.names) : kw.findSome? (fault s 0) = none := by
  rw [List.findSome?_eq_none_iff]
  intro kv hkv
  unfold fault
  simp [h kv hkv]

theorem run_all {m : Method R} {kw : Env} (v : String → Val) (h1 : ∀ kv ∈ kw, kv.1 ∈ m.sig.names)
    (h2 : ∀ n ∈ m.sig.names, dictGet kw n = some (v n)) :
    m.run ⟨[], kw⟩ = ([m.sig.names.map fun n => (n, v n)], m.body (m.sig.names.map fun n => (n, v n))) := by
  have hb : bind m.sig ⟨[], kw⟩ = .ok (m.sig.names.map fun n => (n, v n)) := by
    unfold bind
    dsimp only [List.length_nil]
    rw [findSome_fault_none _ _ h1, given_nil]
    dsimp only
    rw [if_neg (by omega), mapM_bindPar_ok kw v _ fun p hp => h2 p.name (List.mem_map_of_mem hp)]
    simp [Sig.names, Function.comp_def]
  unfold Method.run
  rw [hb]

theorem run_missing {m : Method R} (hd : ∀ p ∈ m.sig.pos ++ m.sig.kws, p.default = none) {kw : Env}
    (h1 : ∀ kv ∈ kw, kv.1 ∈ m.sig.names) (n : String) (hn : n ∈ m.sig.names) (h2 : dictGet kw n = none) :
    m.run ⟨[], kw⟩ = ([], .error (.raised .typeError)) := by
  obtain ⟨p, hp, rfl⟩ := List.mem_map.1 hn
  have hb : bind m.sig ⟨[], kw⟩ = .error (.raised .typeError) := by
    unfold bind
    dsimp only [List.length_nil]
    rw [findSome_fault_none _ _ h1, given_nil]
    dsimp only
    rw [if_neg (by omega), mapM_bindPar_missing kw _ hd p hp h2]
  unfold Method.run
  rw [hb]

/-- The keyword arguments of a call, with and without `x` and `params`, with one name for the norm or none. -/
def kwargsOf (withX : Bool) (norm : Option String) (withParams : Bool) (v : String → Val) : Env :=
  ((if withX then ["x"] else []) ++ ["limits"] ++ norm.toList ++ (if withParams then ["params"] else []) ++ ["model"]).map fun n => (n, v n)

theorem dictGet_map (l : List String) (v : String → Val) (n : String) (h : n ∈ l) : dictGet (l.map fun n => (n, v n)) n = some (v n) := by
  induction l with
  | nil => cases h
  | cons a l ih =>
    rw [List.map_cons, dictGet_cons]
    by_cases ha : a = n
    · subst ha
      simp
    · rcases List.mem_cons.1 h with rfl | h
      · exact absurd rfl ha
      · simp [ha, ih h]

theorem dictGet_map_none (l : List String) (v : String → Val) (n : String) (h : n ∉ l) : dictGet (l.map fun n => (n, v n)) n = none :=
  dictGet_none_of_not_mem _ _ (by simpa [Function.comp_def] using h)

/-- A call of a documented function whose keyword arguments it all has. -/
theorem run_kwargs {m : Method R} (hd : Documented m.sig) (withX : Bool) (norm : Option String) (v : String → Val)
    (hx : withX = true → "x" ∈ m.sig.names) (hn : ∀ k, norm = some k → k ∈ m.sig.names) (hnx : norm ≠ some "x") :
    (((withX = false → "x" ∉ m.sig.names) ∧ (∀ k ∈ m.sig.names, k = "norm" ∨ k = "norm_range" → norm = some k)) →
      m.run ⟨[], kwargsOf withX norm (decide ("params" ∈ m.sig.names)) v⟩ =
        ([m.sig.names.map fun n => (n, v n)], m.body (m.sig.names.map fun n => (n, v n)))) ∧
    (¬ ((withX = false → "x" ∉ m.sig.names) ∧ (∀ k ∈ m.sig.names, k = "norm" ∨ k = "norm_range" → norm = some k)) →
      m.run ⟨[], kwargsOf withX norm (decide ("params" ∈ m.sig.names)) v⟩ = ([], .error (.raised .typeError))) := by
  have hall : ∀ kv ∈ kwargsOf withX norm (decide ("params" ∈ m.sig.names)) v, kv.1 ∈ m.sig.names := by
    intro kv hkv
    obtain ⟨n, hmem, rfl⟩ := List.mem_map.1 hkv
    simp only [List.mem_append, List.mem_singleton, Option.mem_toList] at hmem
    rcases hmem with (((h | rfl) | h) | h) | rfl
    · split at h
      · rw [List.mem_singleton.1 h]
        exact hx (by assumption)
      · cases h
    · exact hd.limits
    · exact hn n h
    · split at h
      · rename_i hp
        rw [List.mem_singleton.1 h]
        exact of_decide_eq_true hp
      · cases h
    · exact hd.model
  refine ⟨fun ⟨h1, h2⟩ => run_all v hall fun n hname => dictGet_map _ v n ?_, fun h => ?_⟩
  · have := hd.known n hname
    simp only [integralArguments, List.mem_cons, List.not_mem_nil, or_false] at this
    simp only [List.mem_append, List.mem_singleton, Option.mem_toList]
    rcases this with rfl | rfl | rfl | rfl | rfl | rfl
    · have : withX = true := by
        cases withX with
        | true => rfl
        | false => exact absurd hname (h1 rfl)
      simp [this]
    · simp
    · simp [h2 _ hname (.inl rfl)]
    · simp [h2 _ hname (.inr rfl)]
    · simp [hname]
    · simp
  · have hmiss : ∃ n ∈ m.sig.names, n ≠ "limits" ∧ n ≠ "params" ∧ n ≠ "model" ∧ ¬ (n = "x" ∧ withX = true) ∧ norm ≠ some n := by
      by_cases h1 : withX = false → "x" ∉ m.sig.names
      · have h2 : ¬ ∀ k ∈ m.sig.names, k = "norm" ∨ k = "norm_range" → norm = some k := fun h2 => h ⟨h1, h2⟩
        push Not at h2
        obtain ⟨k, hk, hk2, hk3⟩ := h2
        rcases hk2 with rfl | rfl
        · exact ⟨_, hk, by decide, by decide, by decide, by simp, hk3⟩
        · exact ⟨_, hk, by decide, by decide, by decide, by simp, hk3⟩
      · push Not at h1
        obtain ⟨hw, hmem⟩ := h1
        exact ⟨"x", hmem, by decide, by decide, by decide, by simp [hw], hnx⟩
    obtain ⟨n, hmem, h1, h2, h3, h4, h5⟩ := hmiss
    refine run_missing hd.required hall n hmem (dictGet_map_none _ v n ?_)
    simp only [List.mem_append, List.mem_singleton, Option.mem_toList]
    rintro ((((h | h) | h) | h) | h)
    · split at h
      · exact h4 ⟨List.mem_singleton.1 h, by assumption⟩
      · cases h
    · exact h1 h
    · exact h5 h
    · split at h
      · exact h2 (List.mem_singleton.1 h)
      · cases h
    · exact h3 h

theorem forParams_kwargsOf (s : Sig) (withX : Bool) (norm : Option String) (hn : norm ≠ some "params") (v : String → Val) (values : Val) :
    forParams s values ⟨[], kwargsOf withX norm true v⟩ = ⟨[], kwargsOf withX norm (decide ("params" ∈ s.names)) v⟩ := by
  unfold forParams
  by_cases hp : "params" ∈ s.names
  · have : "params" ∈ Call.keys ⟨[], kwargsOf withX norm true v⟩ := by simp [Call.keys, kwargsOf]
    rw [if_pos hp, if_pos this]
    simp [hp]
  · rw [if_neg hp]
    cases withX <;> cases norm <;> simp_all [kwargsOf, dropKey]

theorem dropKey_kwargsOf (withX : Bool) (key : String) (h : key = "norm" ∨ key = "norm_range") (b : Bool) (v : String → Val) :
    dropKey (kwargsOf withX (some key) b v) key = kwargsOf withX none b v := by
  rcases h with rfl | rfl <;> cases withX <;> cases b <;> simp [kwargsOf, dropKey]

/-- One of the calls of a documented function. -/
theorem form_call {m : Method R} (hd : Documented m.sig) (hm : Plain m) (withX : Bool) (key : String)
    (hkey : key = "norm" ∨ key = "norm_range") (v : String → Val) :
    ((withX = true ↔ "x" ∈ m.sig.names) ∧ (∀ k ∈ m.sig.names, k = "norm" ∨ k = "norm_range" → k = key) →
      retryNorm (withParams .none m.run) ⟨[], kwargsOf withX (some key) true v⟩ =
        ([m.sig.names.map fun n => (n, v n)], m.body (m.sig.names.map fun n => (n, v n)))) ∧
    (¬ ((withX = true ↔ "x" ∈ m.sig.names) ∧ (∀ k ∈ m.sig.names, k = "norm" ∨ k = "norm_range" → k = key)) →
      ∃ e : Exn, e.isTypeError = true ∧
        retryNorm (withParams .none m.run) ⟨[], kwargsOf withX (some key) true v⟩ = ([], .error e)) := by
  have hkp : (some key) ≠ some "params" := by rcases hkey with rfl | rfl <;> decide
  have hkx : (some key) ≠ some "x" := by rcases hkey with rfl | rfl <;> decide
  have hf := withParams_eq hm .none (c := ⟨[], kwargsOf withX (some key) true v⟩)
  rw [forParams_kwargsOf m.sig withX (some key) hkp] at hf
  by_cases hx : withX = true ∧ "x" ∉ m.sig.names
  · obtain ⟨rfl, hx⟩ := hx
    refine ⟨fun h => absurd (h.1.1 rfl) hx, fun _ => ⟨.unexpected "x", rfl, ?_⟩⟩
    have hrun : m.run ⟨[], kwargsOf true (some key) (decide ("params" ∈ m.sig.names)) v⟩ = ([], .error (.unexpected "x")) :=
      run_error_fault m _ _ (by simp [kwargsOf, fault, hx])
    unfold retryNorm
    rw [hf, hrun]
    rfl
  · have hx' : withX = true → "x" ∈ m.sig.names := fun h => by
      by_contra hc
      exact hx ⟨h, hc⟩
    by_cases hk : key ∈ m.sig.names
    · have hall := run_kwargs hd withX (some key) v hx' (by rintro k ⟨⟩; exact hk) hkx
      have hiff : ((withX = false → "x" ∉ m.sig.names) ∧ (∀ k ∈ m.sig.names, k = "norm" ∨ k = "norm_range" → some key = some k)) ↔
          ((withX = true ↔ "x" ∈ m.sig.names) ∧ (∀ k ∈ m.sig.names, k = "norm" ∨ k = "norm_range" → k = key)) := by
        refine and_congr ⟨fun h => ⟨hx', fun hm => ?_⟩, fun h hw => ?_⟩ ⟨fun h k h1 h2 => ?_, fun h k h1 h2 => ?_⟩
        · cases withX with
          | true => rfl
          | false => exact absurd hm (h rfl)
        · intro hc
          rw [hw] at h
          cases h.2 hc
        · exact (Option.some.inj (h k h1 h2)).symm
        · rw [h k h1 h2]
      rw [hiff] at hall
      refine ⟨fun h => ?_, fun h => ⟨.raised .typeError, rfl, ?_⟩⟩
      · have hrun := hall.1 h
        unfold retryNorm
        rw [hf, hrun]
        split
        · rename_i heq
          exact absurd (Prod.mk.inj heq).2 (hm _ _)
        · rename_i heq
          exact absurd (Prod.mk.inj heq).2 (hm _ _)
        · rfl
      · have hrun := hall.2 h
        unfold retryNorm
        rw [hf, hrun]
    · have hrun : m.run ⟨[], kwargsOf withX (some key) (decide ("params" ∈ m.sig.names)) v⟩ = ([], .error (.unexpected key)) := by
        refine run_error_fault m _ _ ?_
        cases withX
        · simp [kwargsOf, fault, hk, hd.limits]
        · simp [kwargsOf, fault, hk, hd.limits, hx' rfl]
      have hin : key ∈ Call.keys ⟨[], kwargsOf withX (some key) true v⟩ := by simp [Call.keys, kwargsOf]
      have hsecond : retryNorm (withParams .none m.run) ⟨[], kwargsOf withX (some key) true v⟩ =
          m.run ⟨[], kwargsOf withX none (decide ("params" ∈ m.sig.names)) v⟩ := by
        have hagain : again (withParams .none m.run) ⟨[], kwargsOf withX (some key) true v⟩ key [] =
            m.run ⟨[], kwargsOf withX none (decide ("params" ∈ m.sig.names)) v⟩ := by
          unfold again
          rw [if_pos hin]
          dsimp only
          rw [dropKey_kwargsOf withX key hkey, withParams_eq hm, forParams_kwargsOf m.sig withX none (by decide)]
          simp
        unfold retryNorm
        rw [hf, hrun]
        rcases hkey with rfl | rfl
        · exact hagain
        · exact hagain
      have hall := run_kwargs hd withX none v hx' (by rintro k ⟨⟩) (by decide)
      have hiff : ((withX = false → "x" ∉ m.sig.names) ∧ (∀ k ∈ m.sig.names, k = "norm" ∨ k = "norm_range" → none = some k)) ↔
          ((withX = true ↔ "x" ∈ m.sig.names) ∧ (∀ k ∈ m.sig.names, k = "norm" ∨ k = "norm_range" → k = key)) := by
        refine and_congr ⟨fun h => ⟨hx', fun hm => ?_⟩, fun h hw => ?_⟩ ⟨fun h k h1 h2 => ?_, fun h k h1 h2 => ?_⟩
        · cases withX with
          | true => rfl
          | false => exact absurd hm (h rfl)
        · intro hc
          rw [hw] at h
          cases h.2 hc
        · cases h k h1 h2
        · rw [h k h1 h2] at h1
          exact absurd h1 hk
      rw [hiff] at hall
      rw [hsecond]
      exact ⟨hall.1, fun h => ⟨.raised .typeError, rfl, hall.2 h⟩⟩

/-! ## The decorators -/

/-- What the check of the norm does with a call by keyword. -/
theorem checkNorm_kwargs (supported : Bool) (o : Owner) (s : Sig) (f : Call → Ran R) (withX : Bool) (key : String)
    (hkey : key = "norm" ∨ key = "norm_range") (x limits norm params model : Val) :
    checkNorm (if supported then .all else .some false false) o s f ⟨[], kwargsOf withX (some key) true (asked x limits norm params model)⟩ =
      if allowed supported norm then
        retryNorm f ⟨[], kwargsOf withX (some key) true (asked x limits (handed supported norm) params model)⟩
      else ([], .error (.raised .normNotImplemented)) := by
  have hg : normGiven s ⟨[], kwargsOf withX (some key) true (asked x limits norm params model)⟩ = (norm, false) := by
    unfold normGiven
    rcases hkey with rfl | rfl <;> cases withX <;> cases norm <;>
      simp [kwGet, kwargsOf, dictGet, asked] <;> cases s.index? "norm_range" <;> cases s.index? "norm" <;> simp
  unfold checkNorm
  dsimp only
  rw [hg]
  cases norm with
  | none => simp [allowed, handed]
  | false => simp [allowed, handed]
  | limits n => cases supported <;> simp [allowed, handed]
  | thing n => cases supported <;> simp [allowed, handed]
  | space sp =>
    cases supported with
    | true => simp [allowed, handed]
    | false =>
      by_cases hs : sp.noLimits = true
      · have hrep : replaceNorm s ⟨[], kwargsOf withX (some key) true (asked x limits (.space sp) params model)⟩ false =
            .ok ⟨[], kwargsOf withX (some key) true (asked x limits .false params model)⟩ := by
          unfold replaceNorm
          rcases hkey with rfl | rfl <;> cases withX <;> simp [kwargsOf, falsify, dictSet, asked]
        simp [allowed, handed, hs, hrep]
      · simp [allowed, handed, hs]

theorem noMultiple_kwargs (s : Sig) (hl : "limits" ∈ s.names) (f : Call → Ran R) (withX : Bool) (key : String)
    (hkey : key = "norm" ∨ key = "norm_range") (x norm params model : Val) (n : ℕ) :
    noMultiple s f ⟨[], kwargsOf withX (some key) true (asked x (.limits n) norm params model)⟩ =
      if n > 1 then ([], .error (.raised .multipleLimitsNotImplemented))
      else f ⟨[], kwargsOf withX (some key) true (asked x (.limits n) norm params model)⟩ := by
  have hget : dictGet (kwargsOf withX (some key) true (asked x (.limits n) norm params model)) "limits" = some (.limits n) := by
    unfold kwargsOf
    rw [dictGet_map _ _ _ (by simp)]
    rfl
  unfold noMultiple
  rw [index?_some hl]
  dsimp only [List.length_nil]
  rw [if_neg (by omega), hget]
  rfl

/-- One call of a registered function. -/
theorem call_kwargs (r : Registered R) (hl : "limits" ∈ r.func.sig.names) (withX : Bool) (key : String)
    (hkey : key = "norm" ∨ key = "norm_range") (x norm params model : Val) (n : ℕ) :
    r.call ⟨[], kwargsOf withX (some key) true (asked x (.limits n) norm params model)⟩ =
      if r.multiple = false ∧ n > 1 then ([], .error (.raised .multipleLimitsNotImplemented))
      else if allowed r.norm norm then
        retryNorm (withParams .none r.func.run) ⟨[], kwargsOf withX (some key) true (asked x (.limits n) (handed r.norm norm) params model)⟩
      else ([], .error (.raised .normNotImplemented)) := by
  unfold Registered.call Method.supported
  dsimp only
  rw [checkNorm_kwargs r.norm _ _ _ withX key hkey, noMultiple_kwargs _ hl _ withX key hkey, checkNorm_kwargs r.norm _ _ _ withX key hkey]
  cases r.multiple <;> simp

theorem integralCalls_eq (x limits norm params model : Val) : integralCalls x limits norm params model =
    [⟨[], kwargsOf true (some "norm") true (asked x limits norm params model)⟩,
      ⟨[], kwargsOf false (some "norm") true (asked x limits norm params model)⟩,
      ⟨[], kwargsOf true (some "norm_range") true (asked x limits norm params model)⟩,
      ⟨[], kwargsOf false (some "norm_range") true (asked x limits norm params model)⟩] := rfl

theorem tryCalls_stop (f : Call → Ran R) (c : Call) (cs : List Call) (h : ∀ e, (f c).2 = .error e → e.isTypeError = false) :
    tryCalls f (c :: cs) = f c := by
  rw [tryCalls]
  generalize f c = r at h
  obtain ⟨log, out⟩ := r
  cases out with
  | ok v => rfl
  | error e => simp [h e rfl]

theorem tryCalls_next (f : Call → Ran R) (c : Call) (cs : List Call) (e : Exn) (h : f c = ([], .error e)) (he : e.isTypeError = true) :
    tryCalls f (c :: cs) = tryCalls f cs := by
  rw [tryCalls, h]
  simp [he]

/-! ## C232 -/

/-- C232, the part that holds: a registered function whose arguments are all required, in any order and by position or keyword only, and
which does not raise a `TypeError` itself, is run exactly once, with the event, the limits, the norm, the parameters and the model that were
asked for under whichever of the names it has them, and its outcome, a value or an exception, is the outcome; it is not run at all if there
are several pieces of limits or a norm that it does not support, which is reported to the model. Missing: functions that raise a
`TypeError`, see `integral_error_violated`, and arguments with defaults, see `integral_norm_violated`. -/
theorem integral_called_once_partial (r : Registered R) (hd : Documented r.func.sig)
    (hb : ∀ env e, r.func.body env = .error e → e.isTypeError = false) (x norm params model : Val) (n : ℕ) :
    r.integrate x (.limits n) norm params model =
      if r.multiple = false ∧ n > 1 then ([], .error (.raised .multipleLimitsNotImplemented))
      else if allowed r.norm norm then
        let env := r.func.sig.names.map fun a => (a, asked x (.limits n) (handed r.norm norm) params model a)
        ([env], r.func.body env)
      else ([], .error (.raised .normNotImplemented)) := by
  have hm : Plain r.func := by
    intro env kw h
    have := hb env _ h
    simp [Exn.isTypeError] at this
  have hc := fun withX key hkey => call_kwargs r hd.limits withX key hkey x norm params model n
  unfold Registered.integrate
  rw [integralCalls_eq]
  by_cases h1 : r.multiple = false ∧ n > 1
  · rw [if_pos h1]
    rw [tryCalls_stop _ _ _ (by rw [hc _ _ (.inl rfl), if_pos h1]; rintro e ⟨⟩; rfl), hc _ _ (.inl rfl), if_pos h1]
  · rw [if_neg h1]
    by_cases h2 : allowed r.norm norm = true
    · rw [if_pos h2]
      simp only [if_neg h1, if_pos h2] at hc
      have hform := fun withX key hkey => form_call hd hm withX key hkey (asked x (.limits n) (handed r.norm norm) params model)
      by_cases hx : "x" ∈ r.func.sig.names
      · by_cases hr : "norm_range" ∈ r.func.sig.names
        · have hn : "norm" ∉ r.func.sig.names := fun h => hd.one ⟨h, hr⟩
          obtain ⟨e1, he1, hr1⟩ := (hform true "norm" (.inl rfl)).2 fun h => absurd (h.2 _ hr (.inr rfl)) (by decide)
          obtain ⟨e2, he2, hr2⟩ := (hform false "norm" (.inl rfl)).2 fun h => absurd (h.1.2 hx) (by decide)
          have h3 := (hform true "norm_range" (.inr rfl)).1 ⟨by simp [hx], by
            rintro k hk (rfl | rfl)
            · exact absurd hk hn
            · rfl⟩
          rw [tryCalls_next _ _ _ e1 ((hc _ _ (.inl rfl)).trans hr1) he1, tryCalls_next _ _ _ e2 ((hc _ _ (.inl rfl)).trans hr2) he2,
            tryCalls_stop _ _ _ (by rw [hc _ _ (.inr rfl), h3]; exact hb _), hc _ _ (.inr rfl), h3]
        · have h3 := (hform true "norm" (.inl rfl)).1 ⟨by simp [hx], by
            rintro k hk (rfl | rfl)
            · rfl
            · exact absurd hk hr⟩
          rw [tryCalls_stop _ _ _ (by rw [hc _ _ (.inl rfl), h3]; exact hb _), hc _ _ (.inl rfl), h3]
      · obtain ⟨e1, he1, hr1⟩ := (hform true "norm" (.inl rfl)).2 fun h => hx (h.1.1 rfl)
        by_cases hr : "norm_range" ∈ r.func.sig.names
        · have hn : "norm" ∉ r.func.sig.names := fun h => hd.one ⟨h, hr⟩
          obtain ⟨e2, he2, hr2⟩ := (hform false "norm" (.inl rfl)).2 fun h => absurd (h.2 _ hr (.inr rfl)) (by decide)
          obtain ⟨e3, he3, hr3⟩ := (hform true "norm_range" (.inr rfl)).2 fun h => hx (h.1.1 rfl)
          have h4 := (hform false "norm_range" (.inr rfl)).1 ⟨by simp [hx], by
            rintro k hk (rfl | rfl)
            · exact absurd hk hn
            · rfl⟩
          rw [tryCalls_next _ _ _ e1 ((hc _ _ (.inl rfl)).trans hr1) he1, tryCalls_next _ _ _ e2 ((hc _ _ (.inl rfl)).trans hr2) he2,
            tryCalls_next _ _ _ e3 ((hc _ _ (.inr rfl)).trans hr3) he3,
            tryCalls_stop _ _ _ (by rw [hc _ _ (.inr rfl), h4]; exact hb _), hc _ _ (.inr rfl), h4]
        · have h3 := (hform false "norm" (.inl rfl)).1 ⟨by simp [hx], by
            rintro k hk (rfl | rfl)
            · rfl
            · exact absurd hk hr⟩
          rw [tryCalls_next _ _ _ e1 ((hc _ _ (.inl rfl)).trans hr1) he1,
            tryCalls_stop _ _ _ (by rw [hc _ _ (.inl rfl), h3]; exact hb _), hc _ _ (.inl rfl), h3]
    · rw [if_neg h2, tryCalls_stop _ _ _ (by rw [hc _ _ (.inl rfl), if_neg h1, if_neg h2]; rintro e ⟨⟩; rfl), hc _ _ (.inl rfl), if_neg h1,
        if_neg h2]

/-- the signatures of the polynomial PDFs of the library, of the Crystal Ball family, and the documented one with keyword-only arguments -/
example :
    let poly : Sig := ⟨[⟨"limits", none⟩, ⟨"norm", none⟩, ⟨"params", none⟩, ⟨"model", none⟩], []⟩
    let ball : Sig := ⟨[⟨"limits", none⟩, ⟨"params", none⟩, ⟨"model", none⟩], []⟩
    let full : Sig := ⟨[⟨"x", none⟩, ⟨"limits", none⟩], [⟨"norm_range", none⟩, ⟨"params", none⟩, ⟨"model", none⟩]⟩
    (Documented poly ∧ Documented ball ∧ Documented full) ∧
    (⟨⟨full, fun env => if dictGet env "norm_range" = some (.space ⟨4, false⟩) then .ok 5 else .error (.raised .valueError)⟩, true, false⟩ :
      Registered ℕ).integrate .none (.limits 1) (.space ⟨4, false⟩) (.thing 1) (.thing 2) =
      ([[("x", .none), ("limits", .limits 1), ("norm_range", .space ⟨4, false⟩), ("params", .thing 1), ("model", .thing 2)]], .ok 5) := by
  refine ⟨⟨⟨by decide, by decide, by decide, by decide, by decide⟩, ⟨by decide, by decide, by decide, by decide, by decide⟩,
    ⟨by decide, by decide, by decide, by decide, by decide⟩⟩, by decide +kernel⟩

/-- C232 is violated by a function that raises a `TypeError`: with required arguments it is run once, but what is raised is an
`AssertionError`; with defaults for `x` and the norm it is run four times before. -/
theorem integral_error_violated :
    let body : Env → Except Exn ℕ := fun _ => .error (.raised .typeError)
    let f : Registered ℕ := ⟨⟨⟨[⟨"x", none⟩, ⟨"limits", none⟩, ⟨"norm", none⟩, ⟨"params", none⟩, ⟨"model", none⟩], []⟩, body⟩, false, false⟩
    let g : Registered ℕ := ⟨⟨⟨[⟨"limits", none⟩, ⟨"params", none⟩, ⟨"model", none⟩, ⟨"x", some .none⟩, ⟨"norm", some .none⟩], []⟩, body⟩,
      false, false⟩
    Documented f.func.sig ∧
    f.integrate .none (.limits 1) .none (.thing 1) (.thing 2) =
      ([[("x", .none), ("limits", .limits 1), ("norm", .none), ("params", .thing 1), ("model", .thing 2)]], .error (.raised .assertionError)) ∧
    (g.integrate .none (.limits 1) .none (.thing 1) (.thing 2)).1.length = 4 ∧
    (g.integrate .none (.limits 1) .none (.thing 1) (.thing 2)).2 = .error (.raised .assertionError) := by
  refine ⟨⟨by decide, by decide, by decide, by decide, by decide⟩, by decide +kernel, by decide +kernel, by decide +kernel⟩

/-! ## C233 -/

/-- C233, the part that holds: a function with required arguments that is registered with `supports_norm` gets every norm that is asked for,
under the name it has for it. Missing: functions in which the norm has a default, see `integral_norm_violated`. -/
theorem integral_norm_partial (r : Registered R) (hd : Documented r.func.sig) (hs : r.norm = true)
    (hb : ∀ env e, r.func.body env = .error e → e.isTypeError = false) (x norm params model : Val) (n : ℕ) (hn : r.multiple = true ∨ n ≤ 1)
    (key : String) (hkey : key = "norm" ∨ key = "norm_range") (hk : key ∈ r.func.sig.names) :
    ∃ env, r.integrate x (.limits n) norm params model = ([env], r.func.body env) ∧ dictGet env key = some norm := by
  have h1 : ¬ (r.multiple = false ∧ n > 1) := by
    rintro ⟨h, h'⟩
    rcases hn with hn | hn
    · rw [hn] at h
      cases h
    · omega
  have h2 : allowed r.norm norm = true := by cases norm <;> simp [allowed, hs]
  have h3 : handed r.norm norm = norm := by cases norm <;> simp [handed, hs]
  refine ⟨r.func.sig.names.map fun a => (a, asked x (.limits n) norm params model a), ?_, ?_⟩
  · rw [integral_called_once_partial r hd hb, if_neg h1, if_pos h2, h3]
  · rw [dictGet_map _ _ _ hk]
    rcases hkey with rfl | rfl <;> rfl

/-- C233 is violated: a function registered with `supports_norm` whose argument `norm_range` has a default never gets the norm: the first
call, with the argument `norm`, is repeated without it, and its outcome is taken for the normalised integral. -/
theorem integral_norm_violated :
    let f : Registered ℕ := ⟨⟨⟨[⟨"x", none⟩, ⟨"limits", none⟩, ⟨"params", none⟩, ⟨"model", none⟩, ⟨"norm_range", some .none⟩], []⟩,
      fun env => if dictGet env "norm_range" = some .none then .ok 100 else .ok 1⟩, true, false⟩
    f.integrate .none (.limits 1) (.space ⟨4, false⟩) (.thing 1) (.thing 2) =
      ([[("x", .none), ("limits", .limits 1), ("params", .thing 1), ("model", .thing 2), ("norm_range", .none)]], .ok 100) := by
  decide +kernel

end Zfit.Own
