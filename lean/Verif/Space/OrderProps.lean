import Verif.Space.OrderModel
import Verif.Space.MultiEqProps
import Verif.Space.NormProps

/-!
# Property C310 (see /verif/properties.jsonl): `<=` of spaces

`Builds A boxes` (MultiProps.lean): `A` was built by any nesting of additions from spaces with these boxes.
-/

namespace Zfit.Sp

open Zfit Zfit.Coord

/-! ### Specification -/

/-- Every point of one of the first boxes is in one of the second boxes. -/
def Inside (as bs : List Box) : Prop := ∀ p, (∃ a ∈ as, Box.contains a p = true) → ∃ b ∈ bs, Box.contains b p = true

/-- Neither the lower nor the upper limit is larger. -/
def Below (u v : Rat × Rat) : Prop := u.1 ≤ v.1 ∧ u.2 ≤ v.2

theorem lessEqual_decides : Decides Lim.lessEqual Below := fun u v => by simp [Lim.lessEqual, Below]

/-! ### Lemmas -/

theorem multiMake_multi {l : List ASpace} {o : Option (List String)} {ax : Option (List Int)} {spaces : List Space} {c : Coords}
    (h : multiMake l o ax = .ok (.multi spaces c)) : spaces.length ≠ 1 := by
  unfold multiMake at h
  split at h
  · cases h
  · simp only [bind_eq_ok] at h
    obtain ⟨ls, -, ls', -, h⟩ := h
    split at h
    · cases h
    · rename_i hne
      simp only [bind_eq_ok] at h
      obtain ⟨x, -, h⟩ := h
      cases h
      intro h1
      obtain ⟨s, rfl⟩ := List.length_eq_one_iff.1 h1
      exact hne s rfl

theorem Builds.multi_length {spaces : List Space} {c : Coords} {bs : List Box} (h : Builds (.multi spaces c) bs) : bs.length ≠ 1 := by
  obtain ⟨o, hR⟩ := h.rep
  have h1 := hR.2.2.length_eq
  rw [← h1]
  cases h with
  | add n As bs A h hA => exact multiMake_multi hA

theorem Builds.single_length {s : Space} {bs : List Box} (h : Builds (.single s) bs) : bs.length = 1 := by
  obtain ⟨o, hR⟩ := h.rep
  have h1 := hR.2.2.length_eq
  rw [← h1]
  rfl

/-! ### C310 -/

/-- C310: what is answered.  A single space is not compared with a union; otherwise there is an answer for all spaces: the same observables,
the same number of pieces, and for each piece of either one of the other such that neither limit of the first is above that of the second. -/
theorem space_le_iff (A B : ASpace) (as bs : List Box) (hA : Builds A as) (hB : Builds B bs) (ha : as ≠ []) (hb : bs ≠ []) (hax : NoAxes A)
    (hm : as.length = 1 → bs.length = 1) :
    ∃ r, A.le B = .ok r ∧ (r = true ↔ SameNames as bs ∧ as.length = bs.length ∧ (∀ a ∈ as, ∃ b ∈ bs, RelBox Below a b) ∧
      ∀ b ∈ bs, ∃ a ∈ as, RelBox Below a b) := by
  have key := compareMulti_iff lessEqual_decides hA hB ha hb hax
  cases A with
  | multi spaces c => exact key
  | single s =>
    cases B with
    | single t => exact key
    | multi spaces c =>
      exfalso
      exact hB.multi_length (hm hA.single_length)

/-- C310 is violated: a space cannot be compared with a union, not even with one that it is a piece of. -/
theorem space_le_union_violated (A B : ASpace) (as bs : List Box) (hA : Builds A as) (hB : Builds B bs) (ha : as.length = 1)
    (hb : bs.length ≠ 1) : A.le B = .error .typeError ∧ B.ge A = .error .typeError := by
  cases A with
  | multi spaces c => exact absurd ha hA.multi_length
  | single s =>
    cases B with
    | single t => exact absurd hB.single_length hb
    | multi spaces c => exact ⟨rfl, rfl⟩

/-- C310 is violated in both directions: two disjoint intervals are `<=`, and an interval inside another is not. -/
theorem space_le_violated :
    ∃ A B C D, intervals [(0, 1)] = .ok A ∧ intervals [(5, 6)] = .ok B ∧ intervals [(1, 2)] = .ok C ∧ intervals [(0, 3)] = .ok D ∧
      A.le B = .ok true ∧ ¬ Inside [[("x", (0, 1))]] [[("x", (5, 6))]] ∧
      C.le D = .ok false ∧ Inside [[("x", (1, 2))]] [[("x", (0, 3))]] := by
  refine ⟨_, _, _, _, rfl, rfl, rfl, rfl, by decide +kernel, ?_, by decide +kernel, ?_⟩
  · intro h
    obtain ⟨b, hb, hc⟩ := h (fun _ => 1) ⟨_, List.mem_singleton.2 rfl, by decide +kernel⟩
    rw [List.mem_singleton.1 hb] at hc
    revert hc
    decide +kernel
  · rintro p ⟨a, ha, hc⟩
    rw [List.mem_singleton.1 ha] at hc
    refine ⟨_, List.mem_singleton.2 rfl, ?_⟩
    simp only [Box.contains, List.all_cons, List.all_nil, Bool.and_true, Bool.and_eq_true, decide_eq_true_eq] at hc ⊢
    exact ⟨le_trans (by norm_num) hc.1, le_trans hc.2 (by norm_num)⟩

/-- C310, the part that holds: if two spaces over the same observables begin at the same lower limits, then `<=` says whether the first is
inside the second.  Missing: other lower limits (`space_le_violated`) and unions (`space_le_union_violated`). -/
theorem space_le_inside_partial (A B : ASpace) (a b : Box) (hA : Builds A [a]) (hB : Builds B [b]) (hax : NoAxes A)
    (hn : ∀ x, x ∈ a.map (·.1) ↔ x ∈ b.map (·.1)) (hlow : RelBox (fun u v => u.1 = v.1) a b) (hne : ∀ e ∈ a, e.2.1 ≤ e.2.2) :
    A.le B = .ok true ↔ Inside [a] [b] := by
  obtain ⟨r, hr, hiff⟩ := space_le_iff A B [a] [b] hA hB (by simp) (by simp) hax (by simp)
  have hsn : SameNames [a] [b] := by
    intro a' ha' b' hb' x
    rw [List.mem_singleton.1 ha', List.mem_singleton.1 hb']
    exact hn x
  have hua : ∀ x u v, (x, u) ∈ a → (x, v) ∈ a → u = v := fun x u v hu hv => hA.unique (List.mem_singleton.2 rfl) hu hv
  rw [hr, Except.ok.injEq, hiff]
  simp only [hsn, List.length_singleton, List.mem_singleton, forall_eq, exists_eq_left, true_and, and_self, Inside]
  constructor
  · intro h p hp
    simp only [Box.contains, List.all_eq_true, Bool.and_eq_true, decide_eq_true_eq] at hp ⊢
    rintro ⟨x, v⟩ hv
    obtain ⟨⟨y, u⟩, hu, rfl⟩ := List.mem_map.1 ((hn x).2 (List.mem_map.2 ⟨_, hv, rfl⟩))
    have h1 := hp _ hu
    exact ⟨by rw [← hlow _ _ _ hu hv]; exact h1.1, le_trans h1.2 (h _ _ _ hu hv).2⟩
  · intro h x u v hu hv
    refine ⟨le_of_eq (hlow x u v hu hv), ?_⟩
    -- the point with the upper limits of the first
    let p : String → Rat := fun y => ((a.find? (fun e => decide (e.1 = y))).map (·.2.2)).getD 0
    have hp : ∀ e ∈ a, p e.1 = e.2.2 := by
      rintro ⟨y, w⟩ hw
      cases hf : a.find? (fun e => decide (e.1 = y)) with
      | none =>
        rw [List.find?_eq_none] at hf
        exact absurd (by simp) (hf _ hw)
      | some e =>
        have h1 := List.mem_of_find?_eq_some hf
        have h2 := List.find?_some hf
        simp only [decide_eq_true_eq] at h2
        have h3 : e.2 = w := hua y e.2 w (by rw [← h2]; exact h1) hw
        simp [p, hf, h3]
    have hc := h p (by
      simp only [Box.contains, List.all_eq_true, Bool.and_eq_true, decide_eq_true_eq]
      intro e he
      rw [hp e he]
      exact ⟨hne e he, le_refl _⟩)
    simp only [Box.contains, List.all_eq_true, Bool.and_eq_true, decide_eq_true_eq] at hc
    have := (hc _ hv).2
    rw [hp _ hu] at this
    exact this

/-- C310: every space is `<=` and `>=` itself. -/
theorem space_le_self (A : ASpace) (as : List Box) (hA : Builds A as) (ha : as ≠ []) (hax : NoAxes A) : A.le A = .ok true ∧ A.ge A = .ok true := by
  obtain ⟨r, hr, hiff⟩ := space_le_iff A A as as hA hA ha ha hax id
  have hself : ∀ a ∈ as, RelBox Below a a := by
    intro a ha' x u v hu hv
    rw [hA.unique ha' hu hv]
    exact ⟨le_refl _, le_refl _⟩
  have : r = true := hiff.2 ⟨hA.sameNames ha, rfl, fun a h => ⟨a, h, hself a h⟩, fun a h => ⟨a, h, hself a h⟩⟩
  rw [this] at hr
  exact ⟨hr, hr⟩

/-- C310: `<=` is transitive. -/
theorem space_le_trans (A B C : ASpace) (as bs cs : List Box) (hA : Builds A as) (hB : Builds B bs) (hC : Builds C cs) (ha : as ≠ [])
    (hb : bs ≠ []) (hc : cs ≠ []) (haA : NoAxes A) (haB : NoAxes B) (h1 : A.le B = .ok true) (h2 : B.le C = .ok true) :
    A.le C = .ok true := by
  have one : ∀ {X Y : ASpace} {xs ys : List Box}, Builds X xs → Builds Y ys → X.le Y = .ok true → (xs.length = 1 → ys.length = 1) := by
    intro X Y xs ys hX hY h hx
    by_contra hy
    rw [(space_le_union_violated X Y xs ys hX hY hx hy).1] at h
    cases h
  obtain ⟨r1, e1, i1⟩ := space_le_iff A B as bs hA hB ha hb haA (one hA hB h1)
  obtain ⟨r2, e2, i2⟩ := space_le_iff B C bs cs hB hC hb hc haB (one hB hC h2)
  rw [h1] at e1
  rw [h2] at e2
  cases e1
  cases e2
  obtain ⟨n1, l1, f1, g1⟩ := i1.1 rfl
  obtain ⟨n2, l2, f2, g2⟩ := i2.1 rfl
  obtain ⟨r, e, i⟩ := space_le_iff A C as cs hA hC ha hc haA (fun h => one hB hC h2 (one hA hB h1 h))
  have comp : ∀ a ∈ as, ∀ b ∈ bs, ∀ c ∈ cs, RelBox Below a b → RelBox Below b c → RelBox Below a c := by
    intro a ha b hb c hc' hab hbc x u w hu hw
    obtain ⟨⟨y, v⟩, hv, rfl⟩ := List.mem_map.1 ((n1 a ha b hb x).1 (List.mem_map.2 ⟨_, hu, rfl⟩))
    have q1 := hab _ _ _ hu hv
    have q2 := hbc _ _ _ hv hw
    exact ⟨le_trans q1.1 q2.1, le_trans q1.2 q2.2⟩
  rw [e, i.2 ⟨?_, l1.trans l2, ?_, ?_⟩]
  · intro a ha c hc x
    obtain ⟨b, hb'⟩ := List.exists_mem_of_ne_nil _ hb
    exact (n1 a ha b hb' x).trans (n2 b hb' c hc x)
  · intro a ha
    obtain ⟨b, hb, hab⟩ := f1 a ha
    obtain ⟨c, hc, hbc⟩ := f2 b hb
    exact ⟨c, hc, comp a ha b hb c hc hab hbc⟩
  · intro c hc
    obtain ⟨b, hb, hbc⟩ := g2 c hc
    obtain ⟨a, ha, hab⟩ := g1 b hb
    exact ⟨a, ha, comp a ha b hb c hc hab hbc⟩

/-- C310: two single spaces that are `<=` in both directions have the same limits. -/
theorem space_le_antisymm (A B : ASpace) (a b : Box) (hA : Builds A [a]) (hB : Builds B [b]) (haA : NoAxes A) (haB : NoAxes B)
    (h1 : A.le B = .ok true) (h2 : A.ge B = .ok true) (x : String) (u : Rat × Rat) : (x, u) ∈ a ↔ (x, u) ∈ b := by
  obtain ⟨r1, e1, i1⟩ := space_le_iff A B [a] [b] hA hB (by simp) (by simp) haA (by simp)
  obtain ⟨r2, e2, i2⟩ := space_le_iff B A [b] [a] hB hA (by simp) (by simp) haB (by simp)
  rw [h1] at e1
  rw [show B.le A = .ok true from h2] at e2
  cases e1
  cases e2
  obtain ⟨n1, -, f1, -⟩ := i1.1 rfl
  obtain ⟨-, -, f2, -⟩ := i2.1 rfl
  simp only [List.mem_singleton, forall_eq, exists_eq_left] at f1 f2
  have hn := n1 a (by simp) b (by simp) x
  have eq : ∀ u v, (x, u) ∈ a → (x, v) ∈ b → u = v := by
    intro u v hu hv
    have q1 := f1 x u v hu hv
    have q2 := f2 x v u hv hu
    exact Prod.ext (le_antisymm q1.1 q2.1) (le_antisymm q1.2 q2.2)
  constructor
  · intro hu
    obtain ⟨⟨y, v⟩, hv, rfl⟩ := List.mem_map.1 (hn.1 (List.mem_map.2 ⟨_, hu, rfl⟩))
    rw [eq u v hu hv]
    exact hv
  · intro hv
    obtain ⟨⟨y, w⟩, hw, rfl⟩ := List.mem_map.1 (hn.2 (List.mem_map.2 ⟨_, hv, rfl⟩))
    rw [← eq w u hw hv]
    exact hw

/-- What a space made without limits, with `False` or with a rectangle says about its limits. -/
theorem made_kind {o : List String} (ho : o.Nodup) {l : LimIn} (hl : l.Plain) {s : Space} (hs : Space.make (some o) none l = .ok s) :
    s.coords = ⟨some o, none⟩ ∧ s.limitsAreSet = decide (l ≠ .none) ∧ s.limitsAreFalse = decide (l = .false) := by
  have hne := make_ne hs
  rw [make_form ho (fun a h => by cases h) (fun a h => by cases h) hne hl] at hs
  cases hp : limitPieces o.length l with
  | error e => rw [hp] at hs; cases hs
  | ok pieces =>
    rw [hp] at hs
    cases hs
    have key : pieces.length = o.length ∧ (∀ q ∈ pieces, q.isSet = decide (l ≠ .none) ∧ q.isFalse = decide (l = .false)) := by
      cases l with
      | dict _ _ => exact hl.elim
      | none => cases hp; exact ⟨by simp, fun q hq => by rw [List.eq_of_mem_replicate hq]; exact ⟨rfl, rfl⟩⟩
      | false => cases hp; exact ⟨by simp, fun q hq => by rw [List.eq_of_mem_replicate hq]; exact ⟨rfl, rfl⟩⟩
      | rect lo up =>
        simp only [limitPieces] at hp
        split at hp
        · cases hp
        · split at hp
          · cases hp
          · split at hp
            · cases hp
            · cases hp
              refine ⟨by simp; omega, fun q hq => ?_⟩
              rw [← List.map_uncurry_zip_eq_zipWith] at hq
              obtain ⟨⟨x, y⟩, -, rfl⟩ := List.mem_map.1 hq
              exact ⟨rfl, rfl⟩
    obtain ⟨hlen, hall⟩ := key
    have hpne : pieces ≠ [] := by
      rintro rfl
      exact hne (List.length_eq_zero_iff.1 hlen.symm)
    obtain ⟨q, hq⟩ := List.exists_mem_of_ne_nil _ hpne
    have hval : (o.zip pieces).map (·.2) = pieces := List.map_snd_zip (by omega)
    refine ⟨rfl, ?_, ?_⟩
    · simp only [Space.limitsAreSet, Space.limValues, Option.getD_some, hval]
      rw [Bool.eq_iff_iff, List.all_eq_true]
      exact ⟨fun h => (hall q hq).1 ▸ h q hq, fun h r hr => (hall r hr).1 ▸ h⟩
    · simp only [Space.limitsAreFalse, Space.limValues, Option.getD_some, hval]
      rw [Bool.eq_iff_iff, List.all_eq_true]
      exact ⟨fun h => (hall q hq).2 ▸ h q hq, fun h r hr => (hall r hr).2 ▸ h⟩

/-- C310, spaces without limits.  Such a space (no limits given, or `False`) is `<=` exactly those over the same observables of which the same was
said, and no space with limits is `<=` such a space. -/
theorem space_le_without_limits (o p : List String) (ho : o.Nodup) (hp : p.Nodup) (l m : LimIn) (hl : l.Plain) (hm : m.Plain) (s t : Space)
    (hs : Space.make (some o) none l = .ok s) (ht : Space.make (some p) none m = .ok t)
    (hone : l = .none ∨ l = .false ∨ m = .none ∨ m = .false) :
    ∃ r, (ASpace.single s).le (.single t) = .ok r ∧ (r = true ↔ (∀ x, x ∈ o ↔ x ∈ p) ∧ l = m) := by
  obtain ⟨s1, s2, s3⟩ := made_kind ho hl hs
  obtain ⟨t1, t2, t3⟩ := made_kind hp hm ht
  simp only [ASpace.le, compareMulti, compareLimitsMulti, ASpace.coords, s1, t1, Option.or_some, ASpace.limitsAreSet, ASpace.limitsAreFalse,
    ASpace.leaves, List.all_cons, List.all_nil, Bool.and_true, s2, s3, t2, t3, ASpace.len, ASpace.hasLimits, Space.hasLimits]
  have hsame : (o.all (· ∈ p) && p.all (· ∈ o)) = true ↔ ∀ x, x ∈ o ↔ x ∈ p := by
    simp only [Bool.and_eq_true, List.all_eq_true, decide_eq_true_eq]
    exact ⟨fun h x => ⟨h.1 x, h.2 x⟩, fun h => ⟨fun x => (h x).1, fun x => (h x).2⟩⟩
  cases hb : (o.all (· ∈ p) && p.all (· ∈ o)) with
  | false => exact ⟨false, rfl, by rw [hb] at hsame; simp only [Bool.false_eq_true, false_iff] at hsame; simp [hsame]⟩
  | true =>
    rw [hb] at hsame
    have hsame := hsame.1 rfl
    cases l <;> cases m <;> simp_all [LimIn.Plain]

/-- The same said in another order of the observables, `False` instead of nothing, and limits. -/
example : ∃ s t u v, Space.make (some ["x", "y"]) none .none = .ok s ∧ Space.make (some ["y", "x"]) none .none = .ok t ∧
    Space.make (some ["x", "y"]) none .false = .ok u ∧ Space.make (some ["x", "y"]) none (.rect [0, 2] [1, 3]) = .ok v ∧
    (ASpace.single s).le (.single t) = .ok true ∧ (ASpace.single s).le (.single u) = .ok false ∧ (ASpace.single u).le (.single v) = .ok false ∧
    (ASpace.single v).le (.single s) = .ok false := by
  refine ⟨_, _, _, _, rfl, rfl, rfl, rfl, ?_, ?_, ?_, ?_⟩ <;> decide +kernel

/-- Spaces in two dimensions with the observables in another order; a union and its piece. -/
example : ∃ s t A B C, Space.make (some ["x", "y"]) none (.rect [0, 2] [1, 3]) = .ok s ∧ Space.make (some ["y", "x"]) none (.rect [2, 0] [4, 1]) = .ok t ∧
    NoAxes (.single s) ∧ (ASpace.single s).le (.single t) = .ok true ∧ (ASpace.single s).ge (.single t) = .ok false ∧
    intervals [(0, 1)] = .ok A ∧ intervals [(0, 1), (2, 3)] = .ok B ∧ intervals [(2, 4), (0, 2)] = .ok C ∧
    A.le B = .error .typeError ∧ B.le A = .ok false ∧ B.le C = .ok true ∧ C.le B = .ok false := by
  refine ⟨_, _, _, _, _, rfl, rfl, ⟨rfl, by decide⟩, ?_, ?_, rfl, rfl, rfl, ?_, ?_, ?_, ?_⟩ <;> decide +kernel

end Zfit.Sp
