import Verif.Hs3.DocModel
import Mathlib.Tactic.Common
import Mathlib.Tactic.NormNum

/-! Properties of documents and of the PDFs in them (C179-C182). -/

namespace Zfit.Hs3

open Zfit Zfit.Io

/-! ## C179, C180: the argument of a load -/

theorem get?_dictSet_ne (fields : Fields) (k k' : String) (v : J) (h : k ≠ k') : get? k (dictSet fields k' v) = get? k fields := by
  induction fields with
  | nil => simp [dictSet, get?, h]
  | cons p rest ih =>
    obtain ⟨a, b⟩ := p
    simp only [dictSet]
    split
    · rename_i e
      subst e
      simp [get?, h]
    · simp only [get?, ih]

theorem dictSet_dictSet (fields : Fields) (k : String) (v : J) : dictSet (dictSet fields k v) k v = dictSet fields k v := by
  induction fields with
  | nil => simp [dictSet]
  | cons p rest ih =>
    obtain ⟨a, b⟩ := p
    simp only [dictSet]
    split
    · rename_i e
      simp [dictSet, e]
    · rename_i e
      simp [dictSet, e, ih]

theorem typeOf_dictSet (fields : Fields) (v : J) : typeOf (dictSet fields "type" v) = typeOf fields := by
  unfold typeOf
  rw [get?_dictSet_ne _ _ _ _ (by decide), get?_dictSet_ne _ _ _ _ (by decide), get?_dictSet_ne _ _ _ _ (by decide)]

theorem markVar_markVar (v w : J) (h : markVar v = some w) : markVar w = some w := by
  cases v with
  | obj fields =>
    obtain ⟨t, ht, rfl⟩ := Option.map_eq_some_iff.mp h
    simp only [markVar, typeOf_dictSet, ht, Option.map_some, dictSet_dictSet]
  | _ => cases h

theorem markVars_markVars (vars : Fields) : markVars (markVars vars) = markVars vars := by
  induction vars with
  | nil => rfl
  | cons p rest ih =>
    obtain ⟨k, v⟩ := p
    simp only [markVars]
    cases h : markVar v with
    | none => exact ih
    | some w => simp only [markVars, markVar_markVar v w h, ih]

/-- C180: loading the same mapping a second time loads the same, although the first load changed it. -/
theorem load_again (m : Mapping) : prepared (after m) = prepared m ∧ after (after m) = after m := by
  constructor <;> simp [prepared, after, markVars_markVars]

/-- C179, what holds: loading changes nothing but the variables, and there it only adds the type to parameters and removes the others.
Missing from the full claim: the cases of `observable_removed_violated`. -/
theorem argument_partial (m : Mapping) :
    (after m).rest = m.rest ∧
    (after m).vars = (m.vars.filterMap fun p => match p.2 with
      | .obj fields => if (get? "value" fields).isSome || (get? "func" fields).isSome then
          some (p.1, .obj (dictSet fields "type" (.str (if (get? "value" fields).isSome then
            (match get? "floating" fields with | some (.bool false) => "ConstantParameter" | _ => "Parameter")
            else "ComposedParameter"))))
        else none
      | _ => none) := by
  refine ⟨rfl, ?_⟩
  obtain ⟨vars, rest⟩ := m
  simp only [after]
  induction vars with
  | nil => rfl
  | cons p l ih =>
    obtain ⟨k, v⟩ := p
    simp only [markVars, List.filterMap_cons, ih]
    cases v with
    | obj fields =>
      simp only [markVar, typeOf]
      by_cases h1 : (get? "value" fields).isSome = true
      · simp only [h1, if_true, Bool.true_or]
        rcases get? "floating" fields with _ | v
        · rfl
        · cases v with
          | bool b => cases b <;> rfl
          | _ => rfl
      · by_cases h2 : (get? "func" fields).isSome = true <;> simp [h1, h2]
    | _ => rfl

/-- C179 fails for every document with an observable among its variables: `from_hs3` (`zfit.hs3.loads`) removes it from the mapping that it
is given. -/
theorem observable_removed_violated (m : Mapping) (k : String) (fields : Fields) (hk : (k, .obj fields) ∈ m.vars)
    (h1 : get? "value" fields = none) (h2 : get? "func" fields = none) : (after m).vars.length < m.vars.length := by
  have le : ∀ vars : Fields, (markVars vars).length ≤ vars.length := by
    intro vars
    induction vars with
    | nil => exact Nat.le_refl _
    | cons p l ih =>
      obtain ⟨k, v⟩ := p
      simp only [markVars]
      cases markVar v with
      | none => exact Nat.le_succ_of_le ih
      | some w => exact Nat.succ_le_succ ih
  obtain ⟨vars, rest⟩ := m
  simp only [after] at hk ⊢
  induction vars with
  | nil => cases hk
  | cons p l ih =>
    obtain ⟨k', v⟩ := p
    simp only [markVars]
    rcases List.mem_cons.mp hk with e | hk
    · cases e
      have : markVar (.obj fields) = none := by simp [markVar, typeOf, h1, h2]
      rw [this]
      exact Nat.lt_succ_of_le (le l)
    · cases markVar v with
      | none => exact Nat.lt_succ_of_lt (ih hk)
      | some w => exact Nat.succ_lt_succ (ih hk)

/-- A document with a parameter and an observable: the parameter gets a type and the observable is removed. -/
example : (after ⟨[("mu", .obj [("name", .str "mu"), ("value", .num 1)]), ("x", .obj [("name", .str "x"), ("min", .num 0)])],
    .null⟩).vars = [("mu", .obj [("name", .str "mu"), ("value", .num 1), ("type", .str "Parameter")])] := by rfl

/-! ## C181, C182: the PDFs -/

variable {E S X : Type}

mutual
/-- The PDF can be made: every sum in it is what `SumPDF` gives for some fractions. -/
def Built : Pdf E S → Prop
  | .basic _ _ _ _ _ => True
  | .sum pdfs fracs y given => BuiltAll pdfs ∧ ∃ fr, mkSum pdfs fr given = .ok (.sum pdfs fracs y given)
def BuiltAll : Pdfs E S → Prop
  | .nil => True
  | .cons p ps => Built p ∧ BuiltAll ps
end

mutual
/-- All basic PDFs in it are normalised over their space. -/
def DefaultNorm : Pdf E S → Prop
  | .basic _ _ _ norm _ => norm = none
  | .sum pdfs _ _ _ => DefaultNorms pdfs
def DefaultNorms : Pdfs E S → Prop
  | .nil => True
  | .cons p ps => DefaultNorm p ∧ DefaultNorms ps
end

theorem sumFracs_length (yields : List (Option (E → ℚ))) (fracs fs : List (E → ℚ)) (h : sumFracs yields fracs = .ok fs) :
    2 ≤ yields.length ∧ fs.length = yields.length := by
  unfold sumFracs at h
  split at h
  · cases h
  · rename_i hl
    refine ⟨by omega, ?_⟩
    split at h
    · split at h
      · rename_i hall
        cases h
        rw [List.length_map]
        clear hl
        induction yields with
        | nil => rfl
        | cons y ys ih =>
          simp only [List.all_cons, Bool.and_eq_true] at hall
          obtain ⟨z, rfl⟩ := Option.isSome_iff_exists.mp hall.1
          simp only [List.filterMap_cons, id, List.length_cons, ih hall.2]
      · cases h
    · split at h
      · cases h
        simp only [List.length_append, List.length_cons, List.length_nil]
        omega
      · split at h
        · cases h; assumption
        · cases h

theorem sumFracs_again (yields : List (Option (E → ℚ))) (fs : List (E → ℚ)) (h2 : 2 ≤ yields.length) (h : fs.length = yields.length) :
    sumFracs yields fs = .ok fs := by
  unfold sumFracs
  rw [if_neg (by omega), if_neg (by omega), if_neg (by omega), if_pos h]

theorem yields_length_reloads (ps qs : Pdfs E S) (h : reloads ps = .ok qs) : qs.yields.length = ps.yields.length := by
  match ps with
  | .nil => simp only [reloads, Except.ok.injEq] at h; subst h; rfl
  | .cons p ps' =>
    simp only [reloads] at h
    split at h
    · cases h
    · split at h
      · cases h
      · rename_i ps'' hps
        cases h
        simp only [Pdfs.yields, List.length_cons, yields_length_reloads ps' ps'' hps]

mutual
theorem reload_ok (p : Pdf E S) (hb : Built p) : ∃ q, reload p = .ok q ∧
    (DefaultNorm p → ∀ (X : Type) (basic : String → List String → S → S → E → X → ℚ) (e : E) (x : X), density basic e x q = density basic e x p) := by
  cases p with
  | basic t ps s norm y =>
    refine ⟨_, rfl, fun hn X basic e x => ?_⟩
    unfold DefaultNorm at hn
    subst hn
    rfl
  | sum pdfs fracs y given =>
    unfold Built at hb
    obtain ⟨ha, fr, hfr⟩ := hb
    obtain ⟨qs, hq, hd⟩ := reloads_ok pdfs ha
    have hlen : 2 ≤ pdfs.yields.length ∧ fracs.length = pdfs.yields.length := by
      unfold mkSum at hfr
      split at hfr
      · cases hfr
      · rename_i fs hfs
        cases hfr
        exact sumFracs_length _ _ _ hfs
    have hl := yields_length_reloads _ _ hq
    refine ⟨.sum qs fracs (sumYield qs.yields fracs given) given, ?_, ?_⟩
    · unfold reload
      rw [hq]
      dsimp only
      unfold mkSum
      rw [sumFracs_again _ _ (by omega) (by omega)]
    · intro hn X basic e x
      unfold DefaultNorm at hn
      simp only [density]
      exact hd hn X basic e x fracs
theorem reloads_ok (ps : Pdfs E S) (hb : BuiltAll ps) : ∃ qs, reloads ps = .ok qs ∧
    (DefaultNorms ps → ∀ (X : Type) (basic : String → List String → S → S → E → X → ℚ) (e : E) (x : X) (fracs : List (E → ℚ)),
      densities basic e x fracs qs = densities basic e x fracs ps) := by
  cases ps with
  | nil => exact ⟨.nil, rfl, fun _ _ _ _ _ _ => rfl⟩
  | cons p ps =>
    unfold BuiltAll at hb
    obtain ⟨q, hq, hd⟩ := reload_ok p hb.1
    obtain ⟨qs, hqs, hds⟩ := reloads_ok ps hb.2
    refine ⟨.cons q qs, by simp [reloads, hq, hqs], ?_⟩
    intro hn X basic e x fracs
    unfold DefaultNorms at hn
    cases fracs with
    | nil => rfl
    | cons f fs => simp only [densities, hd hn.1 X basic e x, hds hn.2 X basic e x fs]
end

/-- C181, what holds: a PDF that is normalised over its space, and any sum of sums of such PDFs, can be loaded after it was saved and has
the same density, for all values of the parameters and at all points. Missing from the full claim: the cases of `norm_lost_violated`. -/
theorem density_partial (p : Pdf E S) (hb : Built p) (hn : DefaultNorm p) :
    ∃ q, reload p = .ok q ∧
      ∀ (X : Type) (basic : String → List String → S → S → E → X → ℚ) (e : E) (x : X), density basic e x q = density basic e x p := by
  obtain ⟨q, h, hd⟩ := reload_ok p hb
  exact ⟨q, h, hd hn⟩

/-- The PDFs of a sum, as a list. -/
def Pdfs.toList : Pdfs E S → List (Pdf E S)
  | .nil => []
  | .cons p ps => p :: ps.toList

theorem densities_sum {X : Type} (basic : String → List String → S → S → E → X → ℚ) (e : E) (x : X) :
    ∀ (ps : Pdfs E S) (fs : List (E → ℚ)),
      densities basic e x fs ps = (List.zipWith (fun f p => f e * density basic e x p) fs ps.toList).sum
  | .nil, fs => by simp [densities, Pdfs.toList]
  | .cons p ps, [] => by simp [densities]
  | .cons p ps, f :: fs => by simp [densities, Pdfs.toList, densities_sum basic e x ps fs]

/-- C181: what the density of a sum is, the one that is loaded as well as the one that was saved: the sum of the densities of
its PDFs, each times its own fraction. -/
theorem density_sum {X : Type} (pdfs : Pdfs E S) (fracs : List (E → ℚ)) (given : ExtIn E) (p : Pdf E S)
    (h : mkSum pdfs fracs given = .ok p) (basic : String → List String → S → S → E → X → ℚ) (e : E) (x : X) :
    ∃ fs, sumFracs pdfs.yields fracs = .ok fs ∧
      density basic e x p = (List.zipWith (fun f q => f e * density basic e x q) fs pdfs.toList).sum := by
  unfold mkSum at h
  split at h
  · cases h
  · rename_i fs hfs
    cases h
    exact ⟨fs, hfs, by rw [← densities_sum]; simp only [density]⟩

/-- Two Gauss, the second with a norm. -/
def exGauss (norm : Option (ℚ × ℚ)) (y : Option (Unit → ℚ)) : Pdf Unit (ℚ × ℚ) := .basic "Gauss" ["mu", "sigma"] (0, 10) norm y

/-- The hypotheses are met by a sum with one fraction given. -/
example : ∃ p, mkSum (.cons (exGauss none none) (.cons (exGauss none none) .nil)) [fun _ => 1 / 4] .none = .ok p ∧ Built p ∧ DefaultNorm p :=
  ⟨_, rfl, ⟨⟨trivial, trivial, trivial⟩, [fun _ => 1 / 4], rfl⟩, ⟨rfl, rfl, trivial⟩⟩

/-- C181 fails for a PDF with a norm of its own (`norm=(2, 4)` in the space (0, 10)): it is loaded with its space as norm, and its density
differs, such as that of the uniform PDF. -/
theorem norm_lost_violated :
    reload (exGauss (some (2, 4)) none) = .ok (exGauss none none) ∧
    density (X := ℚ) (fun _ _ _ n _ _ => 1 / (n.2 - n.1)) () 3 (exGauss (some (2, 4)) none) = 1 / 2 ∧
    density (X := ℚ) (fun _ _ _ n _ _ => 1 / (n.2 - n.1)) () 3 (exGauss none none) = 1 / 10 := by
  refine ⟨rfl, ?_, ?_⟩ <;> norm_num [exGauss, density]

theorem sumYield_fracs (ys ys' : List (Option (E → ℚ))) (fr fs : List (E → ℚ)) (given : ExtIn E) (h : fr.length ≠ 0) (h' : fs.length ≠ 0) :
    sumYield ys fr given = sumYield ys' fs given := by
  unfold sumYield
  simp [h, h']

/-- C182, what holds: a basic PDF and a sum with fractions keep their yield, or have none, when they are saved and loaded; a sum that was
given a yield, with fractions or without, has that yield before and after. Missing from the full claim: the cases of
`sum_not_extended_violated`, `sum_extended_true_violated`. -/
theorem yield_partial :
    (∀ (t : String) (ps : List String) (s : S) (norm : Option S) (y : Option (E → ℚ)) (q : Pdf E S),
      reload (.basic t ps s norm y) = .ok q → q.yield = y) ∧
    (∀ (pdfs : Pdfs E S) (fr : List (E → ℚ)) (given : ExtIn E) (p q : Pdf E S), BuiltAll pdfs → fr ≠ [] →
      mkSum pdfs fr given = .ok p → reload p = .ok q → q.yield = p.yield) ∧
    (∀ (pdfs : Pdfs E S) (fr : List (E → ℚ)) (y : E → ℚ) (p q : Pdf E S), mkSum pdfs fr (.yield y) = .ok p → reload p = .ok q →
      p.yield = some y ∧ q.yield = some y) := by
  refine ⟨?_, ?_, ?_⟩
  · intro t ps s norm y q h
    cases h
    rfl
  · intro pdfs fr given p q hb hfr hp hq
    unfold mkSum at hp
    split at hp
    · cases hp
    · rename_i fs hfs
      cases hp
      obtain ⟨h2, hl⟩ := sumFracs_length _ _ _ hfs
      obtain ⟨qs, hqs, -⟩ := reloads_ok pdfs hb
      unfold reload at hq
      rw [hqs] at hq
      dsimp only at hq
      have hlen := yields_length_reloads _ _ hqs
      unfold mkSum at hq
      rw [sumFracs_again _ _ (by omega) (by omega)] at hq
      cases hq
      exact sumYield_fracs _ _ _ _ _ (by omega) (by simpa using hfr)
  · intro pdfs fr y p q hp hq
    have key : ∀ (ps : Pdfs E S) (fs : List (E → ℚ)) (o : Pdf E S), mkSum ps fs (.yield y) = .ok o →
        o.yield = some y ∧ ∃ gs z, o = .sum ps gs z (.yield y) := by
      intro ps fs o h
      unfold mkSum at h
      split at h
      · cases h
      · cases h
        exact ⟨rfl, _, _, rfl⟩
    obtain ⟨h1, gs, z, rfl⟩ := key _ _ _ hp
    refine ⟨h1, ?_⟩
    unfold reload at hq
    split at hq
    · cases hq
    · exact (key _ _ _ hq).1

/-- C182 fails for every sum of extended PDFs without fractions: it is extended, but is loaded with its fractions given, and so not
extended. -/
theorem sum_not_extended_violated (pdfs : Pdfs E S) (hb : BuiltAll pdfs) (h2 : 2 ≤ pdfs.yields.length)
    (he : ∀ y ∈ pdfs.yields, y.isSome) :
    ∃ p q, mkSum pdfs [] .none = .ok p ∧ p.isExtended = true ∧ reload p = .ok q ∧ q.isExtended = false := by
  have hall : pdfs.yields.all Option.isSome = true := List.all_eq_true.mpr he
  obtain ⟨fs, hfs⟩ : ∃ fs, sumFracs pdfs.yields [] = .ok fs := by
    unfold sumFracs
    rw [if_neg (by omega), if_pos (by simp), if_pos hall]
    exact ⟨_, rfl⟩
  obtain ⟨-, hl⟩ := sumFracs_length _ _ _ hfs
  obtain ⟨qs, hqs, -⟩ := reloads_ok pdfs hb
  have hlen := yields_length_reloads _ _ hqs
  refine ⟨.sum pdfs fs (sumYield pdfs.yields [] .none) .none, .sum qs fs (sumYield qs.yields fs .none) .none, ?_, ?_, ?_, ?_⟩
  · unfold mkSum
    rw [hfs]
  · simp [Pdf.isExtended, Pdf.yield, sumYield, hall]
  · unfold reload
    rw [hqs]
    dsimp only
    unfold mkSum
    rw [sumFracs_again _ _ (by omega) (by omega)]
  · have : fs.length ≠ 0 := by omega
    simp [Pdf.isExtended, Pdf.yield, sumYield, this]

/-- Two extended Gauss meet the hypotheses. -/
example : BuiltAll (.cons (exGauss none (some fun _ => 100)) (.cons (exGauss none (some fun _ => 50)) .nil)) ∧
    ∀ y ∈ (Pdfs.cons (exGauss none (some fun _ => 100)) (.cons (exGauss none (some fun _ => 50)) .nil)).yields, y.isSome := by
  refine ⟨⟨trivial, trivial, trivial⟩, ?_⟩
  intro y hy
  simp only [Pdfs.yields, exGauss, Pdf.yield, List.mem_cons, List.not_mem_nil, or_false] at hy
  rcases hy with rfl | rfl <;> rfl

/-- And fails when such a sum is made with `extended=True`: it is loaded with a yield of one. -/
theorem sum_extended_true_violated :
    ∃ p q, mkSum (.cons (exGauss none (some fun _ => 100)) (.cons (exGauss none (some fun _ => 50)) .nil)) [] (.flag true) = .ok p ∧
      p.yield.map (· ()) = some 150 ∧ reload p = .ok q ∧ q.yield.map (· ()) = some 1 := by
  refine ⟨_, _, rfl, ?_, rfl, ?_⟩
  · show some (total [fun _ : Unit => (100 : ℚ), fun _ => 50] ()) = some 150
    norm_num [total]
  · rfl

end Zfit.Hs3
