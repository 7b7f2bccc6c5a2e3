import Verif.Args.Eval
import Verif.Param.Props
import Mathlib.Data.List.Induction

/-!
# Properties of evaluations at given values of the parameters

* C123: `model_value_at`, `model_point_rejected`, `loss_value_at`, `loss_value_at_array`, `loss_point_rejected`,
  `loss_call_at`
* C124: `rejected_untouched_partial`; `rejected_value_leaks_violated`, `rejected_call_leaks_violated`
-/

namespace Zfit.Args

open Zfit Zfit.Par

/-! ### Specification -/

/-- The value that a mapping has for a name (the last one, if a parameter and its name are both keys). -/
def valueFor (m : List (PKey × ℚ)) (n : String) : Option ℚ := (m.reverse.find? (fun p => p.1.str = n)).map (·.2)

/-- `ρ` are the values in the store `s` with the parameters `leaves` at the given values (clipped to their limits), where
there is one, and all others unchanged. -/
def SetTo (s : Par.Store) (leaves : List Leaf) (given : Leaf → Option ℚ) (ρ : Nat → ℚ) : Prop :=
  (∀ l ∈ leaves, ∀ v, given l = some v → Clipped (s l.id).lower (s l.id).upper v (ρ l.id)) ∧
  (∀ l ∈ leaves, given l = none → ρ l.id = (s l.id).value) ∧
  (∀ i, (∀ l ∈ leaves, l.id ≠ i) → ρ i = (s i).value)

/-- No parameter has another value than before. -/
def SameValues (s s' : Par.Store) : Prop := ∀ i, (s' i).value = (s i).value

/-- The parameters of a model: different ones, with different names (C15, C16). -/
def Distinct (leaves : List Leaf) : Prop := (leaves.map (·.id)).Nodup ∧ (leaves.map (·.name)).Nodup

/-- Every given value is allowed by the limits of its parameter. -/
def Allowed (s : Par.Store) (leaves : List Leaf) (given : Leaf → Option ℚ) : Prop :=
  ∀ l ∈ leaves, ∀ v, given l = some v → ¬ Beyond (s l.id).lower (s l.id).upper v

/-! ### Which values are set -/

private theorem fold_get (m : List (PKey × ℚ)) (n : String) : ∀ d : List (String × ℚ),
    dictGet (m.foldl (fun d p => dictSet d p.1.str p.2) d) n = (valueFor m n).or (dictGet d n) := by
  induction m using List.reverseRecOn with
  | nil => intro d; rfl
  | append_singleton m p ih =>
    intro d
    rw [List.foldl_append]
    simp only [List.foldl_cons, List.foldl_nil]
    unfold valueFor
    rw [List.reverse_append]
    simp only [List.reverse_cons, List.reverse_nil, List.nil_append, List.cons_append, List.find?_cons]
    by_cases h : p.1.str = n
    · subst h
      rw [dictGet_set_self]
      simp
    · rw [dictGet_set_ne _ _ _ _ (Ne.symm h), ih d]
      simp only [h, decide_false]
      rfl

private theorem dictSet_keys {d : List (String × ℚ)} {k : String} {v : ℚ} (h : (d.map (·.1)).Nodup) :
    ((dictSet d k v).map (·.1)).Nodup ∧ ∀ n, n ∈ (dictSet d k v).map (·.1) ↔ n = k ∨ n ∈ d.map (·.1) := by
  induction d with
  | nil => simp [dictSet]
  | cons p d ih =>
    obtain ⟨k', v'⟩ := p
    simp only [List.map_cons, List.nodup_cons] at h
    obtain ⟨h1, h2⟩ := ih h.2
    unfold dictSet
    split
    · rename_i hk
      subst hk
      simp only [List.map_cons, List.nodup_cons, List.mem_cons]
      exact ⟨h, fun n => by tauto⟩
    · rename_i hk
      simp only [List.map_cons, List.nodup_cons, List.mem_cons, h2]
      exact ⟨⟨by rintro (h' | h'); exacts [hk h', h.1 h'], h1⟩, fun n => by tauto⟩

private theorem fold_keys (m : List (PKey × ℚ)) : ∀ d : List (String × ℚ), (d.map (·.1)).Nodup →
    ((m.foldl (fun d p => dictSet d p.1.str p.2) d).map (·.1)).Nodup := by
  induction m with
  | nil => intro d h; exact h
  | cons p m ih => intro d h; exact ih _ (dictSet_keys h).1

private theorem get_some_mem {d : List (String × ℚ)} {n : String} : (dictGet d n).isSome ↔ n ∈ d.map (·.1) := by
  unfold dictGet
  rw [Option.isSome_map, List.find?_isSome]
  simp

private theorem get_filter {d : List (String × ℚ)} {n k : String} (h : n ≠ k) :
    dictGet (d.filter (fun p => p.1 ≠ k)) n = dictGet d n := by
  unfold dictGet
  congr 1
  induction d with
  | nil => rfl
  | cons p d ih =>
    rw [List.filter_cons]
    by_cases hk : p.1 = k
    · rw [if_neg (by simpa using hk), ih, List.find?_cons]
      have : ¬ p.1 = n := by rw [hk]; exact Ne.symm h
      simp [this]
    · rw [if_pos (by simpa using hk), List.find?_cons, List.find?_cons, ih]

private theorem pick_eq (values : List (String × ℚ)) : ∀ (ls : List Leaf) (rest : List (String × ℚ)),
    (ls.map (·.name)).Nodup → (∀ l ∈ ls, dictGet rest l.name = dictGet values l.name) →
    pickValues values ls rest = .ok (ls.filterMap (fun l => (dictGet values l.name).map (fun v => (l, v))),
      rest.filter (fun p => p.1 ∉ ls.map (·.name) ∨ dictGet values p.1 = none)) := by
  intro ls
  induction ls with
  | nil => intro rest _ _; simp [pickValues]
  | cons l ls ih =>
    intro rest hn hr
    simp only [List.map_cons, List.nodup_cons] at hn
    unfold pickValues
    cases hv : dictGet values l.name with
    | none =>
      simp only [Option.isSome_none, Bool.false_eq_true, if_false, List.filterMap_cons, hv, Option.map_none]
      rw [ih rest hn.2 (fun l' hl' => hr l' (List.mem_cons_of_mem _ hl'))]
      congr 2
      apply List.filter_congr
      intro p _
      simp only [List.map_cons, List.mem_cons, decide_eq_decide]
      constructor
      · rintro (h | h)
        · by_cases he : p.1 = l.name
          · exact Or.inr (by rw [he]; exact hv)
          · exact Or.inl (by rintro (h' | h'); exacts [he h', h h'])
        · exact Or.inr h
      · rintro (h | h)
        · exact Or.inl fun h' => h (Or.inr h')
        · exact Or.inr h
    | some v =>
      have hr0 := hr l List.mem_cons_self
      rw [hv] at hr0
      simp only [Option.isSome_some, if_true, hr0, List.filterMap_cons, hv, Option.map_some]
      rw [ih _ hn.2 (fun l' hl' => by
        rw [get_filter (fun h => hn.1 (by rw [← h]; exact List.mem_map_of_mem hl'))]
        exact hr l' (List.mem_cons_of_mem _ hl'))]
      show Except.ok _ = Except.ok _
      congr 2
      rw [List.filter_filter]
      apply List.filter_congr
      intro p _
      simp only [List.map_cons, List.mem_cons]
      rw [← Bool.decide_and, decide_eq_decide]
      constructor
      · rintro ⟨h1, h2⟩
        rcases h1 with h1 | h1
        · exact Or.inl (by rintro (h' | h'); exacts [h2 h', h1 h'])
        · exact Or.inr h1
      · rintro (h | h)
        · exact ⟨Or.inl fun h' => h (Or.inr h'), fun h' => h (Or.inl h')⟩
        · refine ⟨Or.inr h, fun h' => ?_⟩
          rw [h', hv] at h
          cases h

/-- The pairs that are set for a mapping of known names. -/
private def pairs (leaves : List Leaf) (m : List (PKey × ℚ)) : List (Leaf × ℚ) :=
  leaves.filterMap (fun l => (valueFor m l.name).map (fun v => (l, v)))

private theorem point_ok {leaves : List Leaf} (hd : Distinct leaves) (m : List (PKey × ℚ))
    (hk : ∀ p ∈ m, p.1.str ∈ leaves.map (·.name)) :
    checkConvertPoint leaves (.mapping m) = .ok (pairs leaves m) := by
  have hv : ∀ n, dictGet (m.foldl (fun d p => dictSet d p.1.str p.2) []) n = valueFor m n := by
    intro n
    rw [fold_get]
    cases valueFor m n <;> rfl
  unfold checkConvertPoint
  simp only [convertParamValues]
  show (pickValues _ leaves _ >>= _) = _
  rw [pick_eq _ leaves _ hd.2 (fun _ _ => rfl)]
  show (if _ then _ else _) = _
  rw [if_pos]
  · show Except.ok _ = Except.ok _
    congr 1
    unfold pairs
    simp only [hv]
  · rw [List.isEmpty_iff, List.filter_eq_nil_iff]
    intro p hp
    simp only [decide_eq_true_eq]
    rintro (h | h)
    · apply h
      have : p.1 ∈ (m.foldl (fun d p => dictSet d p.1.str p.2) []).map (·.1) := List.mem_map_of_mem hp
      rw [← get_some_mem, hv] at this
      unfold valueFor at this
      rw [Option.isSome_map, List.find?_isSome] at this
      obtain ⟨q, hq, he⟩ := this
      rw [List.mem_reverse] at hq
      have := hk q hq
      rwa [of_decide_eq_true he] at this
    · have : p.1 ∈ (m.foldl (fun d p => dictSet d p.1.str p.2) []).map (·.1) := List.mem_map_of_mem hp
      rw [← get_some_mem, h] at this
      cases this

private theorem point_unknown {leaves : List Leaf} (hd : (leaves.map (·.name)).Nodup) (m : List (PKey × ℚ))
    (hk : ∃ p ∈ m, p.1.str ∉ leaves.map (·.name)) :
    checkConvertPoint leaves (.mapping m) = .error .valueError := by
  have hv : ∀ n, dictGet (m.foldl (fun d p => dictSet d p.1.str p.2) []) n = valueFor m n := by
    intro n
    rw [fold_get]
    cases valueFor m n <;> rfl
  unfold checkConvertPoint
  simp only [convertParamValues]
  show (pickValues _ leaves _ >>= _) = _
  rw [pick_eq _ leaves _ hd (fun _ _ => rfl)]
  show (if _ then _ else _) = _
  rw [if_neg]
  rw [List.isEmpty_iff, List.filter_eq_nil_iff]
  intro h
  obtain ⟨p, hp, hn⟩ := hk
  have : (dictGet (m.foldl (fun d p => dictSet d p.1.str p.2) []) p.1.str).isSome := by
    rw [hv]
    unfold valueFor
    rw [Option.isSome_map, List.find?_isSome]
    exact ⟨p, List.mem_reverse.2 hp, by simp⟩
  rw [get_some_mem] at this
  obtain ⟨q, hq, he⟩ := List.mem_map.1 this
  exact h q hq (by rw [he]; simpa using Or.inl hn)

private theorem mem_pairs {leaves : List Leaf} {given : Leaf → Option ℚ} {l : Leaf} {v : ℚ} :
    (l, v) ∈ leaves.filterMap (fun l => (given l).map (fun v => (l, v))) ↔ l ∈ leaves ∧ given l = some v := by
  rw [List.mem_filterMap]
  constructor
  · rintro ⟨l', hl', he⟩
    rw [Option.map_eq_some_iff] at he
    obtain ⟨w, hw, he⟩ := he
    cases he
    exact ⟨hl', hw⟩
  · rintro ⟨hl, hv⟩
    exact ⟨l, hl, by rw [hv]; rfl⟩

/-! ### Setting, evaluating, restoring -/

/-- The pairs of parameters and given values. -/
private def pairsOf (leaves : List Leaf) (given : Leaf → Option ℚ) : List (Leaf × ℚ) :=
  leaves.filterMap (fun l => (given l).map (fun v => (l, v)))

private theorem acceptable_of {s : Par.Store} {leaves : List Leaf} {given : Leaf → Option ℚ} (ha : Allowed s leaves given) :
    Acceptable s (blockOf (pairsOf leaves given)) := by
  rintro ⟨i, v⟩ hiv
  obtain ⟨⟨l, w⟩, hl, he⟩ := List.mem_map.1 hiv
  cases he
  obtain ⟨h1, h2⟩ := mem_pairs.1 hl
  exact ha l h1 w h2

private theorem set_values {s : Par.Store} (hp : ProperStore s) {leaves : List Leaf} (hd : (leaves.map (·.id)).Nodup)
    {given : Leaf → Option ℚ} (ha : Allowed s leaves given) :
    setAll s (blockOf (pairsOf leaves given)) = (assignAll s (blockOf (pairsOf leaves given)), none) ∧
    SetTo s leaves given (fun i => ((assignAll s (blockOf (pairsOf leaves given))) i).value) := by
  refine ⟨setAll_acceptable hp (acceptable_of ha), ?_, ?_, ?_⟩
  · intro l hl v hv
    have hmem : (l.id, v) ∈ blockOf (pairsOf leaves given) :=
      List.mem_map.2 ⟨(l, v), mem_pairs.2 ⟨hl, hv⟩, rfl⟩
    simp only
    rw [assignAll_const (v := v) (List.mem_map_of_mem hmem)]
    · rw [assign_value]
      exact clip_clipped (hp _) _
    · rintro ⟨i, w⟩ hiw he
      obtain ⟨⟨l', w'⟩, hl', he'⟩ := List.mem_map.1 hiw
      cases he'
      obtain ⟨h1, h2⟩ := mem_pairs.1 hl'
      simp only at he
      have := List.inj_on_of_nodup_map hd h1 hl he
      subst this
      rw [h2] at hv
      cases hv
      rfl
  · intro l hl hv
    simp only
    rw [assignAll_untouched]
    rintro h
    obtain ⟨⟨i, w⟩, hiw, rfl⟩ := List.mem_map.1 h
    obtain ⟨⟨l', w'⟩, hl', he'⟩ := List.mem_map.1 hiw
    obtain ⟨h1, h2⟩ := mem_pairs.1 hl'
    simp only [Prod.mk.injEq] at he'
    have := List.inj_on_of_nodup_map hd h1 hl he'.1
    subst this
    rw [h2] at hv
    cases hv
  · intro i hi
    simp only
    rw [assignAll_untouched]
    rintro h
    obtain ⟨⟨j, w⟩, hiw, he⟩ := List.mem_map.1 h
    obtain ⟨⟨l', w'⟩, hl', he'⟩ := List.mem_map.1 hiw
    obtain ⟨h1, h2⟩ := mem_pairs.1 hl'
    cases he'
    exact hi l' h1 he

/-- `s` and `s'` have the same limits and values. -/
private def Same (s s' : Par.Store) : Prop := SameLimits s s' ∧ SameValues s s'

private theorem evalAt_ok {α : Type} {s : Par.Store} (hp : ProperStore s) {leaves : List Leaf}
    (hd : (leaves.map (·.id)).Nodup) {given : Leaf → Option ℚ} (ha : Allowed s leaves given)
    (f : (Nat → ℚ) → Except Err α) :
    ∃ s' ρ, evalAt s (blockOf (pairsOf leaves given)) f = (s', f ρ) ∧ Same s s' ∧ SetTo s leaves given ρ := by
  obtain ⟨h1, h2⟩ := set_values hp hd ha
  have hsame : SameLimits s (assignAll s (blockOf (pairsOf leaves given))) := assignAll_same _ _
  obtain ⟨h3, h4⟩ := restore hp hsame (blockOf (pairsOf leaves given))
  unfold evalAt
  rw [h1]
  simp only
  rcases hr : setAll (assignAll s (blockOf (pairsOf leaves given)))
    (List.map (fun iv => (iv.1, (s iv.1).value)) (blockOf (pairsOf leaves given))) with ⟨s', e⟩
  have hlim := setAll_same (assignAll s (blockOf (pairsOf leaves given)))
    (List.map (fun iv => (iv.1, (s iv.1).value)) (blockOf (pairsOf leaves given)))
  have hun := fun i => setAll_untouched (assignAll s (blockOf (pairsOf leaves given)))
    (List.map (fun iv => (iv.1, (s iv.1).value)) (blockOf (pairsOf leaves given))) i
  rw [hr] at h3 h4 hlim hun
  simp only at h3
  subst h3
  refine ⟨s', _, by rw [hr], ⟨hsame.trans hlim, ?_⟩, h2⟩
  intro i
  by_cases hi : i ∈ (blockOf (pairsOf leaves given)).map (·.1)
  · exact h4 i hi
  · have h5 := hun i (by simpa using hi)
    simp only at h5
    rw [h5, assignAll_untouched _ _ _ hi]

private theorem setTo_same {s s' : Par.Store} (h : Same s s') {leaves : List Leaf} {given : Leaf → Option ℚ} {ρ : Nat → ℚ}
    (hs : SetTo s' leaves given ρ) : SetTo s leaves given ρ := by
  obtain ⟨h1, h2, h3⟩ := hs
  refine ⟨fun l hl v hv => ?_, fun l hl hv => ?_, fun i hi => ?_⟩
  · have := h1 l hl v hv
    rwa [(h.1 _).1, (h.1 _).2] at this
  · rw [h2 l hl hv, h.2]
  · rw [h3 i hi, h.2]

private theorem clipped_unique {lower upper : Option ℚ} (h : Proper lower upper) {v a b : ℚ} (ha : Clipped lower upper v a)
    (hb : Clipped lower upper v b) : a = b := by
  by_cases hw : Within lower upper v
  · rw [ha.1 hw, hb.1 hw]
  · unfold Within at hw
    rw [not_and_or] at hw
    rcases hw with hw | hw
    · push Not at hw
      obtain ⟨l, hl, hlt⟩ := hw
      rw [ha.2.1 l hl hlt.le, hb.2.1 l hl hlt.le]
    · push Not at hw
      obtain ⟨u, hu, hlt⟩ := hw
      rw [ha.2.2 u hu hlt.le, hb.2.2 u hu hlt.le]

private theorem setTo_unique {s : Par.Store} (hp : ProperStore s) {leaves : List Leaf} {given : Leaf → Option ℚ}
    {ρ ρ' : Nat → ℚ} (h : SetTo s leaves given ρ) (h' : SetTo s leaves given ρ') : ρ = ρ' := by
  funext i
  by_cases hi : ∃ l ∈ leaves, l.id = i
  · obtain ⟨l, hl, rfl⟩ := hi
    cases hg : given l with
    | none => rw [h.2.1 l hl hg, h'.2.1 l hl hg]
    | some v => exact clipped_unique (hp _) (h.1 l hl v hg) (h'.1 l hl v hg)
  · push Not at hi
    rw [h.2.2 i hi, h'.2.2 i hi]

private theorem allowed_same {s s' : Par.Store} (h : SameLimits s s') {leaves : List Leaf} {given : Leaf → Option ℚ}
    (ha : Allowed s leaves given) : Allowed s' leaves given := by
  intro l hl v hv
  rw [(h _).1, (h _).2]
  exact ha l hl v hv

/-! ### Models -/

/-- C123: a method of a model that is called with `params` returns, or raises, what it does if the parameters have these
values (clipped to the limits) and all others their own; afterwards all parameters have the values they had before. -/
theorem model_value_at {α : Type} (leaves : List Leaf) (hd : Distinct leaves) (s : Par.Store) (hp : ProperStore s)
    (m : List (PKey × ℚ)) (hk : ∀ p ∈ m, p.1.str ∈ leaves.map (·.name))
    (ha : Allowed s leaves (fun l => valueFor m l.name)) (f : (Nat → ℚ) → Except Err α) :
    ∃ ρ, SetTo s leaves (fun l => valueFor m l.name) ρ ∧ (modelEval leaves s (.mapping m) f).2 = f ρ ∧
      SameValues s (modelEval leaves s (.mapping m) f).1 := by
  unfold modelEval
  rw [point_ok hd m hk]
  obtain ⟨s', ρ, h1, h2, h3⟩ := evalAt_ok hp hd.1 ha f
  refine ⟨ρ, h3, ?_, ?_⟩
  · show (evalAt s (blockOf (pairsOf leaves _)) f).2 = _
    rw [h1]
  · show SameValues s (evalAt s (blockOf (pairsOf leaves _)) f).1
    rw [h1]
    exact h2.2

/-- C123: an unknown name is a `ValueError`, anything but a mapping a `TypeError`, and nothing is evaluated or set. -/
theorem model_point_rejected {α : Type} (leaves : List Leaf) (hd : Distinct leaves) (s : Par.Store)
    (f : (Nat → ℚ) → Except Err α) :
    (∀ m, (∃ p ∈ m, p.1.str ∉ leaves.map (·.name)) → modelEval leaves s (.mapping m) f = (s, .error .valueError)) ∧
    (∀ vs, modelEval leaves s (.array vs) f = (s, .error .typeError)) ∧
    modelEval leaves s .other f = (s, .error .typeError) ∧
    modelEval leaves s .none f = (s, f (fun i => (s i).value)) := by
  refine ⟨fun m h => ?_, fun _ => rfl, rfl, rfl⟩
  unfold modelEval
  rw [point_unknown hd.2 m h]

/-- The parameters of the examples. -/
def exLeaves : List Leaf := [⟨0, "mu", .indep, true⟩, ⟨1, "sigma", .indep, false⟩]

example : Distinct exLeaves ∧ (∀ p ∈ [(PKey.name "sigma", (7 : ℚ))], p.1.str ∈ exLeaves.map (·.name)) :=
  ⟨⟨by decide, by decide⟩, by decide⟩

example : (modelEval exLeaves exStore (.mapping [(.name "sigma", 7)]) (fun ρ => .ok (ρ 0, ρ 1, ρ 2))).2
    = .ok (5, 7, 1) := by decide +kernel

/-! ### Losses -/

/-- What a loss needs for its first evaluation at the values `ρ`: the value that the offset is computed from. -/
def LossObj.Startable (l : LossObj) (m : LossMem) (ρ : Nat → ℚ) : Prop :=
  m.precompiled = true ∨ l.subtract = false ∨ m.offset ≠ none ∨ ∃ v, l.value (some 0) ρ = .ok v

/-- The offset in use after an evaluation at `ρ`. -/
def LossObj.offsetAfter (l : LossObj) (m : LossMem) (ρ : Nat → ℚ) (o : Option ℚ) : Prop :=
  (m.precompiled = true ∨ l.subtract = false ∨ m.offset ≠ none → o = m.offset) ∧
  (m.precompiled = false → l.subtract = true → m.offset = none → ∀ v, l.value (some 0) ρ = .ok v → o = some (l.offsetOf v))

private theorem firstBody_ok {l : LossObj} {m : LossMem} {ρ : Nat → ℚ} (h : l.Startable m ρ) (hp : m.precompiled = false) :
    ∃ o, l.firstBody m ρ = .ok o ∧ l.offsetAfter m ρ o := by
  unfold LossObj.firstBody
  by_cases hc : l.subtract = true ∧ m.offset = none
  · rw [if_pos hc]
    rcases h with h | h | h | ⟨v, h⟩
    · rw [hp] at h; cases h
    · rw [hc.1] at h; cases h
    · exact absurd hc.2 h
    · rw [h]
      refine ⟨_, rfl, ?_, ?_⟩
      · rintro (h' | h' | h')
        · rw [hp] at h'; cases h'
        · rw [hc.1] at h'; cases h'
        · exact absurd hc.2 h'
      · intro _ _ _ v' hv'
        rw [h] at hv'
        cases hv'
        rfl
  · rw [if_neg hc]
    exact ⟨_, rfl, fun _ => rfl, fun _ h1 h2 => absurd ⟨h1, h2⟩ hc⟩

private theorem eval_ok {α : Type} (l : LossObj) (hd : Distinct l.leaves) (s : Par.Store) (hp : ProperStore s)
    (mem : LossMem) (pt : Point) (given : Leaf → Option ℚ)
    (hpt : lossPoint l.leaves pt >>= checkConvertPoint l.leaves = .ok (pairsOf l.leaves given))
    (ha : Allowed s l.leaves given) (f : Option ℚ → (Nat → ℚ) → Except Err α)
    (hs : ∀ ρ, SetTo s l.leaves given ρ → l.Startable mem ρ) :
    ∃ ρ o, SetTo s l.leaves given ρ ∧ l.offsetAfter mem ρ o ∧ (l.eval s mem pt f).2.2 = f o ρ ∧
      (l.eval s mem pt f).2.1 = ⟨true, o⟩ ∧ Same s (l.eval s mem pt f).1 := by
  rcases hlp : lossPoint l.leaves pt with e | pt'
  · rw [hlp] at hpt; cases hpt
  rw [hlp] at hpt
  have hpt' : checkConvertPoint l.leaves pt' = .ok (pairsOf l.leaves given) := hpt
  obtain ⟨prec, off⟩ := mem
  cases prec with
  | true =>
    obtain ⟨s', ρ, h1, h2, h3⟩ := evalAt_ok hp hd.1 ha (f off)
    have he : l.eval s ⟨true, off⟩ pt f = (s', ⟨true, off⟩, f off ρ) := by
      unfold LossObj.eval LossObj.precompile
      simp only [if_true, hlp, modelEval, hpt', h1]
    rw [he]
    exact ⟨ρ, off, h3, ⟨fun _ => rfl, fun h => by cases h⟩, rfl, rfl, h2⟩
  | false =>
    obtain ⟨s1, ρ, h1, h2, h3⟩ := evalAt_ok hp hd.1 ha (l.firstBody ⟨false, off⟩)
    obtain ⟨o, ho, hoa⟩ := firstBody_ok (hs ρ h3) rfl
    obtain ⟨s2, ρ2, h1', h2', h3'⟩ := evalAt_ok (h2.1.proper hp) hd.1 (allowed_same h2.1 ha) (f o)
    have hρ : ρ2 = ρ := setTo_unique hp (setTo_same h2 h3') h3
    subst hρ
    have he : l.eval s ⟨false, off⟩ pt f = (s2, ⟨true, o⟩, f o ρ2) := by
      unfold LossObj.eval LossObj.precompile
      simp only [Bool.false_eq_true, if_false, hlp, hpt', h1, ho, h1']
    rw [he]
    exact ⟨ρ2, o, h3, hoa, rfl, rfl, h2.1.trans h2'.1, fun i => (h2'.2 i).trans (h2.2 i)⟩

/-- C123: `loss.value(params=…, full=True)` is the value of the loss at these values of the parameters, whatever was
evaluated before, and leaves all parameters as they were.  Other evaluations (`f`: without constants, the gradient, …) are
the same with the offset of the first evaluation. -/
theorem loss_value_at (l : LossObj) (hd : Distinct l.leaves) (s : Par.Store) (hp : ProperStore s) (mem : LossMem)
    (m : List (PKey × ℚ)) (hk : ∀ p ∈ m, p.1.str ∈ l.leaves.map (·.name))
    (ha : Allowed s l.leaves (fun x => valueFor m x.name))
    (hs : ∀ ρ, SetTo s l.leaves (fun x => valueFor m x.name) ρ → l.Startable mem ρ) :
    (∃ ρ, SetTo s l.leaves (fun x => valueFor m x.name) ρ ∧
      (l.valueAt s mem (.mapping m) true).2.2 = l.value none ρ ∧ SameValues s (l.valueAt s mem (.mapping m) true).1) ∧
    (∀ {α : Type} (f : Option ℚ → (Nat → ℚ) → Except Err α), ∃ ρ o, SetTo s l.leaves (fun x => valueFor m x.name) ρ ∧
      l.offsetAfter mem ρ o ∧ (l.eval s mem (.mapping m) f).2.2 = f o ρ ∧
      (l.eval s mem (.mapping m) f).2.1 = ⟨true, o⟩ ∧ SameValues s (l.eval s mem (.mapping m) f).1) := by
  have key := fun {α : Type} (f : Option ℚ → (Nat → ℚ) → Except Err α) =>
    eval_ok l hd s hp mem (.mapping m) (fun x => valueFor m x.name) (point_ok hd m hk) ha f hs
  constructor
  · obtain ⟨ρ, o, h1, h2, h3, h4, h5⟩ := key (fun off => l.value (if true = true then none else off))
    exact ⟨ρ, h1, h3, h5.2⟩
  · intro α f
    obtain ⟨ρ, o, h1, h2, h3, h4, h5⟩ := key f
    exact ⟨ρ, o, h1, h2, h3, h4, h5.2⟩

private theorem zip_given : ∀ (ls : List Leaf) (vs : List ℚ), (ls.map (·.name)).Nodup → vs.length = ls.length →
    ∀ i (h : i < ls.length) (h' : i < vs.length), valueFor ((ls.map PKey.param).zip vs) ls[i].name = some vs[i] := by
  intro ls vs hn hl i h h'
  unfold valueFor
  have hmem : (PKey.param ls[i], vs[i]) ∈ (ls.map PKey.param).zip vs := by
    rw [List.mem_iff_getElem]
    exact ⟨i, by simp [hl, h], by simp⟩
  have huniq : ∀ p ∈ (ls.map PKey.param).zip vs, p.1.str = ls[i].name → p = (PKey.param ls[i], vs[i]) := by
    intro p hpm hs
    obtain ⟨j, hj, rfl⟩ := List.mem_iff_getElem.1 hpm
    simp only [List.length_zip, List.length_map] at hj
    have hj1 : j < ls.length := by omega
    have hj2 : j < vs.length := by omega
    simp only [List.getElem_zip, List.getElem_map] at hs ⊢
    have hne : ls[j].name = ls[i].name := hs
    have : j = i := by
      have h1 : (ls.map (·.name))[j]'(by simpa using hj1) = (ls.map (·.name))[i]'(by simpa using h) := by simpa using hne
      exact (List.Nodup.getElem_inj_iff hn).1 h1
    subst this
    rfl
  cases hf : (((ls.map PKey.param).zip vs).reverse.find? (fun p => p.1.str = ls[i].name)) with
  | none =>
    rw [List.find?_eq_none] at hf
    exact absurd (by simp [PKey.str]) (hf _ (List.mem_reverse.2 hmem))
  | some p =>
    have h1 := List.mem_of_find?_eq_some hf
    have h2 := List.find?_some hf
    rw [huniq p (List.mem_reverse.1 h1) (by simpa using h2)]
    rfl

/-- C123: with an array, the values are those of all parameters (also the fixed ones), in the order of
`get_params(floating=None)`. -/
theorem loss_value_at_array (l : LossObj) (hd : Distinct l.leaves) (s : Par.Store) (hp : ProperStore s) (mem : LossMem)
    (vs : List ℚ) (hl : vs.length = l.leaves.length)
    (ha : ∀ i (h : i < l.leaves.length), ¬ Beyond (s l.leaves[i].id).lower (s l.leaves[i].id).upper vs[i])
    (hs : ∀ ρ, l.Startable mem ρ) :
    ∃ ρ, (∀ i (h : i < l.leaves.length), Clipped (s l.leaves[i].id).lower (s l.leaves[i].id).upper vs[i] (ρ l.leaves[i].id))
      ∧ (∀ i, (∀ x ∈ l.leaves, x.id ≠ i) → ρ i = (s i).value) ∧
      (l.valueAt s mem (.array vs) true).2.2 = l.value none ρ ∧ SameValues s (l.valueAt s mem (.array vs) true).1 := by
  have hg := zip_given l.leaves vs hd.2 hl
  have hk : ∀ p ∈ (l.leaves.map PKey.param).zip vs, p.1.str ∈ l.leaves.map (·.name) := by
    rintro ⟨k, v⟩ hkv
    obtain ⟨x, hx, rfl⟩ := List.mem_map.1 (List.of_mem_zip hkv).1
    exact List.mem_map_of_mem hx
  have hpt : lossPoint l.leaves (.array vs) >>= checkConvertPoint l.leaves = .ok (pairsOf l.leaves
      (fun x => valueFor ((l.leaves.map PKey.param).zip vs) x.name)) := by
    unfold lossPoint
    simp only [hl, ne_eq, not_true_eq_false, if_false]
    exact point_ok hd _ hk
  have ha' : Allowed s l.leaves (fun x => valueFor ((l.leaves.map PKey.param).zip vs) x.name) := by
    intro x hx v hv
    obtain ⟨i, hi, rfl⟩ := List.mem_iff_getElem.1 hx
    have h1 := hg i hi (by omega)
    simp only at hv
    rw [h1] at hv
    cases hv
    exact ha i hi
  obtain ⟨ρ, o, h1, h2, h3, h4, h5⟩ := eval_ok l hd s hp mem (.array vs) _ hpt ha'
    (fun off => l.value (if true = true then none else off)) (fun ρ _ => hs ρ)
  refine ⟨ρ, fun i h => ?_, h1.2.2, h3, h5.2⟩
  exact h1.1 _ (List.getElem_mem h) _ (hg i h (by omega))

/-- C123: unknown names, arrays of another length and anything else are rejected, and nothing changes. -/
theorem loss_point_rejected {α : Type} (l : LossObj) (hd : Distinct l.leaves) (s : Par.Store) (mem : LossMem)
    (f : Option ℚ → (Nat → ℚ) → Except Err α) :
    (∀ m, (∃ p ∈ m, p.1.str ∉ l.leaves.map (·.name)) → l.eval s mem (.mapping m) f = (s, mem, .error .valueError)) ∧
    (∀ vs : List ℚ, vs.length ≠ l.leaves.length → l.eval s mem (.array vs) f = (s, mem, .error .valueError)) ∧
    l.eval s mem .other f = (s, mem, .error .typeError) := by
  obtain ⟨prec, off⟩ := mem
  refine ⟨fun m h => ?_, fun vs h => ?_, ?_⟩
  · have := point_unknown hd.2 m h
    cases prec <;> unfold LossObj.eval LossObj.precompile <;>
      simp [lossPoint, this, modelEval]
  · cases prec <;> unfold LossObj.eval LossObj.precompile <;> simp [lossPoint, h]
  · cases prec <;> unfold LossObj.eval LossObj.precompile <;>
      simp [lossPoint, checkConvertPoint, convertParamValues, modelEval] <;> rfl

/-- C123: `loss(x)` is the full value with the floating parameters at `x`, in the order of `get_params()`, and leaves all
parameters as they were; an array of another length is a `ValueError`. -/
theorem loss_call_at (l : LossObj) (hd : (l.free.map (·.id)).Nodup) (hne : l.free ≠ []) (s : Par.Store)
    (hp : ProperStore s) (mem : LossMem) (x : List ℚ) (hs : ∀ ρ, l.Startable mem ρ) :
    (x.length ≠ l.free.length → l.call s mem x = (s, mem, .error .valueError)) ∧
    (∀ (hl : x.length = l.free.length),
      (∀ i (h : i < l.free.length), ¬ Beyond (s l.free[i].id).lower (s l.free[i].id).upper x[i]) →
      ∃ ρ, (∀ i (h : i < l.free.length), Clipped (s l.free[i].id).lower (s l.free[i].id).upper x[i] (ρ l.free[i].id)) ∧
        (∀ i, (∀ y ∈ l.free, y.id ≠ i) → ρ i = (s i).value) ∧
        (l.call s mem x).2.2 = l.value none ρ ∧ SameValues s (l.call s mem x).1) := by
  have h0 : l.free.length ≠ 0 := by simpa using hne
  refine ⟨fun h => ?_, fun hl ha => ?_⟩
  · unfold LossObj.call
    rw [if_neg h0, if_pos h]
  · have hacc : Acceptable s (blockOf (l.free.zip x)) := by
      rintro ⟨i, v⟩ hiv
      obtain ⟨⟨y, w⟩, hy, he⟩ := List.mem_map.1 hiv
      cases he
      obtain ⟨j, hj, he⟩ := List.mem_iff_getElem.1 hy
      simp only [List.length_zip] at hj
      simp only [List.getElem_zip, Prod.mk.injEq] at he
      obtain ⟨rfl, rfl⟩ := he
      exact ha j (by omega)
    have hset := setAll_acceptable hp hacc
    have hlim : SameLimits s (assignAll s (blockOf (l.free.zip x))) := assignAll_same _ _
    -- the evaluation inside
    have hin : ∃ s1, l.valueAt (assignAll s (blockOf (l.free.zip x))) mem .none true
        = (s1, (l.valueAt (assignAll s (blockOf (l.free.zip x))) mem .none true).2.1,
            l.value none (fun i => (assignAll s (blockOf (l.free.zip x)) i).value)) ∧
        Same (assignAll s (blockOf (l.free.zip x))) s1 := by
      generalize assignAll s (blockOf (l.free.zip x)) = t
      obtain ⟨prec, off⟩ := mem
      cases prec with
      | true =>
        exact ⟨t, rfl, SameLimits.refl t, fun _ => rfl⟩
      | false =>
        obtain ⟨o, ho, -⟩ := firstBody_ok (hs (fun i => (t i).value)) rfl
        have he : l.precompile t ⟨false, off⟩ .none = (t, ⟨true, o⟩, .ok (.inr [])) := by
          unfold LossObj.precompile
          simp [lossPoint, checkConvertPoint, evalAt, blockOf, setAll, ho]
        refine ⟨t, ?_, SameLimits.refl t, fun _ => rfl⟩
        unfold LossObj.valueAt LossObj.eval
        rw [he]
        simp [evalAt, blockOf, setAll]
    obtain ⟨s1, h1, h2⟩ := hin
    obtain ⟨h3, h4⟩ := restore hp (hlim.trans h2.1) (blockOf (l.free.zip x))
    have hun := fun i => setAll_untouched s1 (List.map (fun iv => (iv.1, (s iv.1).value)) (blockOf (l.free.zip x))) i
    rcases hr : setAll s1 (List.map (fun iv => (iv.1, (s iv.1).value)) (blockOf (l.free.zip x))) with ⟨s2, e⟩
    rw [hr] at h3 h4 hun
    simp only at h3
    subst h3
    have hcall : l.call s mem x = (s2, (l.valueAt (assignAll s (blockOf (l.free.zip x))) mem .none true).2.1,
        l.value none (fun i => (assignAll s (blockOf (l.free.zip x)) i).value)) := by
      unfold LossObj.call
      rw [if_neg h0, if_neg (by simpa using hl)]
      simp only [hset]
      rw [h1]
      simp only [hr]
    rw [hcall]
    refine ⟨_, ?_, ?_, rfl, ?_⟩
    · intro i h
      have hmem : (l.free[i].id, x[i]) ∈ blockOf (l.free.zip x) := by
        refine List.mem_map.2 ⟨(l.free[i], x[i]), ?_, rfl⟩
        rw [List.mem_iff_getElem]
        exact ⟨i, by simp [hl, h], by simp⟩
      rw [assignAll_const (v := x[i]) (List.mem_map_of_mem hmem)]
      · rw [assign_value]
        exact clip_clipped (hp _) _
      · rintro ⟨j, w⟩ hjw he
        obtain ⟨⟨y, w'⟩, hy, he'⟩ := List.mem_map.1 hjw
        cases he'
        obtain ⟨k, hk, he''⟩ := List.mem_iff_getElem.1 hy
        simp only [List.length_zip] at hk
        simp only [List.getElem_zip, Prod.mk.injEq] at he''
        obtain ⟨rfl, rfl⟩ := he''
        simp only at he
        have : k = i := by
          have h1 : (l.free.map (·.id))[k]'(by simp; omega) = (l.free.map (·.id))[i]'(by simpa using h) := by simpa using he
          exact (List.Nodup.getElem_inj_iff hd).1 h1
        subst this
        rfl
    · intro i hi
      rw [assignAll_untouched]
      intro h
      obtain ⟨⟨j, w⟩, hjw, he⟩ := List.mem_map.1 h
      obtain ⟨⟨y, w'⟩, hy, he'⟩ := List.mem_map.1 hjw
      cases he'
      exact hi y (List.of_mem_zip hy).1 he
    · intro i
      simp only
      by_cases hi : i ∈ (blockOf (l.free.zip x)).map (·.1)
      · exact h4 i hi
      · have h5 := hun i (by simpa using hi)
        simp only at h5
        rw [h5, h2.2, assignAll_untouched _ _ _ hi]

/-- A loss for the examples: `(mu - 2)² + sigma`, with its offset subtracted. -/
def exLoss : LossObj where
  leaves := exLeaves
  free := [⟨0, "mu", .indep, true⟩]
  value := fun off ρ => .ok ((ρ 0 - 2) ^ 2 + ρ 1 + off.getD 0)
  offsetOf := fun v => -(v - 10000)
  subtract := true

example (mem : LossMem) (ρ : Nat → ℚ) : exLoss.Startable mem ρ := Or.inr (Or.inr (Or.inr ⟨_, rfl⟩))

example : (exLoss.valueAt exStore ⟨false, none⟩ (.mapping [(.name "mu", 3), (.name "sigma", 10)]) true).2.2 = .ok 11 ∧
    (exLoss.valueAt exStore ⟨false, none⟩ (.array [3, 10]) false).2.2 = .ok 10000 ∧
    (exLoss.call exStore ⟨false, none⟩ [3]).2.2 = .ok 2 := by decide +kernel

/-! ### Rejected values -/

/-- C124, the proved part: with at most one value given, a value that is rejected by the limits of its parameter raises
`ValueError` and changes nothing. Missing from the full claim: the cases of `rejected_value_leaks_violated`, `rejected_call_leaks_violated`. -/
theorem rejected_untouched_partial {α : Type} (leaves : List Leaf) (hd : Distinct leaves) (s : Par.Store)
    (hp : ProperStore s) (l : Leaf) (hl : l ∈ leaves) (v : ℚ) (hb : Beyond (s l.id).lower (s l.id).upper v)
    (f : (Nat → ℚ) → Except Err α) :
    modelEval leaves s (.mapping [(.name l.name, v)]) f = (s, .error .valueError) := by
  have hk : ∀ p ∈ [(PKey.name l.name, v)], p.1.str ∈ leaves.map (·.name) := by
    intro p h
    rw [List.mem_singleton] at h
    subst h
    exact List.mem_map_of_mem hl
  unfold modelEval
  rw [point_ok hd _ hk]
  have hpairs : ∀ ls : List Leaf, l ∈ ls → (ls.map (·.name)).Nodup → pairs ls [(PKey.name l.name, v)] = [(l, v)] := by
    intro ls
    induction ls with
    | nil => intro h; cases h
    | cons a ls ih =>
      intro hmem hn
      simp only [List.map_cons, List.nodup_cons] at hn
      have hnil : ∀ ls : List Leaf, l.name ∉ ls.map (·.name) → pairs ls [(PKey.name l.name, v)] = [] := by
        intro ls hnot
        unfold pairs
        rw [List.filterMap_eq_nil_iff]
        intro x hx
        have : ¬ l.name = x.name := fun h => hnot (by rw [h]; exact List.mem_map_of_mem hx)
        simp [valueFor, PKey.str, this]
      unfold pairs at ih hnil ⊢
      rw [List.filterMap_cons]
      rcases List.mem_cons.1 hmem with rfl | h
      · have hz : valueFor [(PKey.name l.name, v)] l.name = some v := by simp [valueFor, PKey.str]
        simp only [hz, Option.map_some]
        rw [hnil ls hn.1]
      · have hne : ¬ l.name = a.name := fun he => hn.1 (by rw [← he]; exact List.mem_map_of_mem h)
        have hz : valueFor [(PKey.name l.name, v)] a.name = none := by simp [valueFor, PKey.str, hne]
        simp only [hz, Option.map_none]
        exact ih h hn.2
  rw [hpairs leaves hl hd.2]
  simp only [blockOf, List.map_cons, List.map_nil, evalAt, setAll]
  have : (s l.id).setValue v = .error .valueError := by
    have := setAll_reject hp (pre := []) (post := []) (i := l.id) (v := v) (fun _ h => by cases h) hb
    simp only [List.nil_append, setAll] at this
    cases hv : (s l.id).setValue v with
    | error e =>
      rw [hv] at this
      simp only [Prod.mk.injEq, Option.some.injEq] at this
      rw [this.2]
    | ok q =>
      rw [hv] at this
      simp at this
  rw [this]

/-- C124 fails: a mapping with several values of which a later one is rejected raises, and the parameters before it keep
the new values.  The order is that of the parameters of the model, not of the mapping. -/
theorem rejected_value_leaks_violated {α : Type} (f : (Nat → ℚ) → Except Err α) :
    let leaves : List Leaf := [⟨1, "sigma", .indep, true⟩, ⟨0, "mu", .indep, true⟩]
    let r := modelEval leaves exStore (.mapping [(.name "mu", 99), (.name "sigma", 7)]) f
    r.2 = .error .valueError ∧ (exStore 1).value = 1 ∧ (r.1 1).value = 7 := by
  have h1 : (setAll exStore [(1, 7), (0, 99)]).2 = some .valueError ∧
      ((setAll exStore [(1, 7), (0, 99)]).1 1).value = 7 := by decide +kernel
  have hc : checkConvertPoint [⟨1, "sigma", .indep, true⟩, ⟨0, "mu", .indep, true⟩]
      (.mapping [(.name "mu", 99), (.name "sigma", 7)])
      = .ok [(⟨1, "sigma", .indep, true⟩, 7), (⟨0, "mu", .indep, true⟩, 99)] := by decide +kernel
  rcases hs : setAll exStore [(1, 7), (0, 99)] with ⟨t, e⟩
  rw [hs] at h1
  obtain ⟨rfl, h2⟩ := h1
  simp only [modelEval, hc, blockOf, List.map_cons, List.map_nil, evalAt, hs]
  exact ⟨trivial, by decide +kernel, h2⟩

/-- The same for calling a loss. -/
theorem rejected_call_leaks_violated (mem : LossMem) :
    let l : LossObj := { exLoss with free := [⟨1, "sigma", .indep, true⟩, ⟨0, "mu", .indep, true⟩] }
    let r := l.call exStore mem [7, 99]
    r.2.2 = .error .valueError ∧ (exStore 1).value = 1 ∧ (r.1 1).value = 7 := by
  have h1 : (setAll exStore [(1, 7), (0, 99)]).2 = some .valueError ∧
      ((setAll exStore [(1, 7), (0, 99)]).1 1).value = 7 := by decide +kernel
  rcases hs : setAll exStore [(1, 7), (0, 99)] with ⟨t, e⟩
  rw [hs] at h1
  obtain ⟨rfl, h2⟩ := h1
  simp only [LossObj.call, List.length_cons, List.length_nil, Nat.zero_add, Nat.reduceAdd, ne_eq, not_true_eq_false,
    if_false, OfNat.ofNat_ne_zero, blockOf, List.zip_cons_cons, List.zip_nil_right, List.map_cons, List.map_nil, hs]
  exact ⟨trivial, by decide +kernel, h2⟩

end Zfit.Args
