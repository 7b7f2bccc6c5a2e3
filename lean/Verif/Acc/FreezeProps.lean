import Verif.Acc.Props

/-!
# Freezing results (C185, C186) and the gradient of the approximations (C187)
-/

namespace Zfit.Acc

open Zfit

variable {E V : Type}

/-! ## The gradient for some of the parameters -/

theorem mem_mapped (hv ps : List Key) (i : ℕ) :
    i ∈ (List.range hv.length).filter (fun i => (hv[i]?.map fun p => decide (p ∈ ps)).getD false) ↔ ∃ p, hv[i]? = some p ∧ p ∈ ps := by
  rw [List.mem_filter, List.mem_range]
  constructor
  · rintro ⟨hi, h⟩
    rw [List.getElem?_eq_getElem hi] at h
    exact ⟨hv[i], List.getElem?_eq_getElem hi, by simpa using h⟩
  · rintro ⟨p, h, hp⟩
    refine ⟨(List.getElem?_eq_some_iff.1 h).1, ?_⟩
    rw [h]; simpa using hp

theorem idxOf_getElem (l : List Key) (p : Key) (h : p ∈ l) : l[l.idxOf p]? = some p := by
  have hi : l.idxOf p < l.length := List.idxOf_lt_length_iff.2 h
  rw [List.getElem?_eq_getElem hi]
  simp

theorem idxOf_of_getElem (l : List Key) (hn : l.Nodup) (p : Key) (i : ℕ) (h : l[i]? = some p) : l.idxOf p = i := by
  obtain ⟨hi, rfl⟩ := List.getElem?_eq_some_iff.1 h
  exact hn.idxOf_getElem i hi

theorem indices_eq (hv ps : List Key) (hn : hv.Nodup) (hp : ps.Nodup) (hs : ∀ p ∈ ps, p ∈ hv) :
    ((List.range hv.length).filter fun i => (hv[i]?.map fun p => decide (p ∈ ps)).getD false).insertionSort
      (fun i j => ((hv[i]?.map fun p => ps.idxOf p).getD 0) ≤ ((hv[j]?.map fun p => ps.idxOf p).getD 0))
      = ps.map fun p => hv.idxOf p := by
  set key : ℕ → ℕ := fun i => (hv[i]?.map fun p => ps.idxOf p).getD 0 with hkey
  set mapped := (List.range hv.length).filter fun i => (hv[i]?.map fun p => decide (p ∈ ps)).getD false with hm
  set L2 := ps.map fun p => hv.idxOf p with hL2
  let back : ℕ → ℕ := fun k => (ps[k]?.map fun p => hv.idxOf p).getD 0
  have hback : ∀ i ∈ mapped, back (key i) = i := by
    intro i hi
    obtain ⟨p, h, hpp⟩ := (mem_mapped hv ps i).1 hi
    have hk : key i = ps.idxOf p := by simp [hkey, h]
    simp only [back, hk, idxOf_getElem ps p hpp, Option.map_some, Option.getD_some]
    exact idxOf_of_getElem hv hn p i h
  have hnm : mapped.Nodup := List.Nodup.filter _ List.nodup_range
  have hn2 : L2.Nodup := by
    refine List.Nodup.map_on ?_ hp
    intro a ha b hb hab
    have h1 := idxOf_getElem hv a (hs a ha)
    have h2 := idxOf_getElem hv b (hs b hb)
    rw [hab, h2] at h1
    exact (Option.some.inj h1).symm
  have hperm : mapped.Perm L2 := by
    rw [List.perm_ext_iff_of_nodup hnm hn2]
    intro i
    rw [mem_mapped]
    constructor
    · rintro ⟨p, h, hpp⟩
      exact List.mem_map.2 ⟨p, hpp, idxOf_of_getElem hv hn p i h⟩
    · intro h
      obtain ⟨p, hpp, rfl⟩ := List.mem_map.1 h
      exact ⟨p, idxOf_getElem hv p (hs p hpp), hpp⟩
  have hk2 : L2.map key = List.range ps.length := by
    rw [hL2, List.map_map]
    refine List.ext_getElem? fun k => ?_
    rw [List.getElem?_map]
    by_cases hk : k < ps.length
    · rw [List.getElem?_eq_getElem hk, List.getElem?_range hk]
      have := idxOf_getElem hv ps[k] (hs _ (List.getElem_mem hk))
      simp only [Option.map_some, Function.comp, hkey, this, Option.getD_some]
      exact congrArg some (hp.idxOf_getElem k hk)
    · rw [List.getElem?_eq_none (by omega), List.getElem?_eq_none (by simpa using hk)]; rfl
  have hsort : ((mapped.insertionSort fun i j => key i ≤ key j).map key) = L2.map key := by
    refine List.Perm.eq_of_pairwise (le := (· ≤ ·)) (fun a b _ _ => Nat.le_antisymm) ?_ ?_ ?_
    · rw [List.pairwise_map]
      haveI : Std.Total (fun i j : ℕ => key i ≤ key j) := ⟨fun a b => Nat.le_total _ _⟩
      haveI : IsTrans ℕ (fun i j : ℕ => key i ≤ key j) := ⟨fun a b c => Nat.le_trans⟩
      exact List.pairwise_insertionSort _ _
    · rw [hk2]; exact List.pairwise_le_range
    · exact ((List.perm_insertionSort _ mapped).trans hperm).map key
  calc mapped.insertionSort (fun i j => key i ≤ key j)
      = (mapped.insertionSort fun i j => key i ≤ key j).map (fun i => back (key i)) := by
        symm
        calc _ = (mapped.insertionSort fun i j => key i ≤ key j).map id :=
              List.map_congr_left fun i hi => hback i ((List.perm_insertionSort _ mapped).mem_iff.1 hi)
          _ = _ := List.map_id _
    _ = ((mapped.insertionSort fun i j => key i ≤ key j).map key).map back := by rw [List.map_map]; rfl
    _ = (L2.map key).map back := by rw [hsort]
    _ = L2.map (fun i => back (key i)) := by rw [List.map_map]; rfl
    _ = L2.map id := List.map_congr_left fun i hi => hback i (hperm.mem_iff.2 hi)
    _ = L2 := List.map_id _

/-- C187, in part.  If each parameter asked for is one the gradient was calculated with, and none is asked for twice, the gradient has one entry
for each parameter asked for, in that order: the derivative for that parameter.  Missing: other parameters
(`gradient_unknown_violated`), repeated ones (`gradient_twice_violated`). -/
theorem gradient_partial (hv ps : List Key) (g : List V) (hg : g.length = hv.length) (hn : hv.Nodup) (hp : ps.Nodup)
    (hs : ∀ p ∈ ps, p ∈ hv) :
    ∃ out, gradientOf hv (some g) (some ps) = .ok (some out) ∧ out.length = ps.length
      ∧ ∀ (k : ℕ) (p : Key), ps[k]? = some p → ∃ i : ℕ, hv[i]? = some p ∧ out[k]? = g[i]? := by
  have hlt : ∀ p ∈ ps, hv.idxOf p < g.length := fun p h => by rw [hg]; exact List.idxOf_lt_length_iff.2 (hs p h)
  have hm : ∀ qs : List Key, (∀ p ∈ qs, hv.idxOf p < g.length) →
      ∃ out, ((qs.map fun p => hv.idxOf p).mapM fun i => pyGet g i) = .ok out ∧ out.length = qs.length
        ∧ ∀ (k : ℕ) (p : Key), qs[k]? = some p → out[k]? = g[hv.idxOf p]? := by
    intro qs
    induction qs with
    | nil => intro _; exact ⟨[], rfl, rfl, by simp⟩
    | cons q qs ih =>
      intro h
      obtain ⟨out, h1, h2, h3⟩ := ih fun p hp => h p (by simp [hp])
      have hq := h q (by simp)
      refine ⟨g[hv.idxOf q] :: out, ?_, by simp [h2], ?_⟩
      · rw [List.map_cons, List.mapM_cons, h1]
        simp [pyGet, List.getElem?_eq_getElem hq, except_bind_ok, except_pure]
      · intro k p hk
        cases k with
        | zero =>
          have : q = p := by simpa using hk
          subst this
          simp [List.getElem?_eq_getElem hq]
        | succ k => simpa using h3 k p (by simpa using hk)
  obtain ⟨out, h1, h2, h3⟩ := hm ps hlt
  refine ⟨out, ?_, h2, fun k p hk => ⟨hv.idxOf p, idxOf_getElem hv p (hs p (List.mem_of_getElem? hk)), h3 k p hk⟩⟩
  unfold gradientOf
  dsimp only
  rw [indices_eq hv ps hn hp hs, h1]
  rfl

/-- Three parameters, two of them asked for in the other order. -/
example :
    let a : Key := .par ⟨0, "a"⟩
    let b : Key := .par ⟨1, "b"⟩
    let c : Key := .par ⟨2, "c"⟩
    gradientOf [a, b, c] (some [10, 20, (30 : ℤ)]) (some [c, a]) = .ok (some [30, 10])
      ∧ gradientOf [a, b, c] (some [10, 20, (30 : ℤ)]) none = .ok (some [10, 20, 30]) := by
  decide +kernel

/-- C187 violated: a parameter that the gradient was not calculated with is left out silently, and the entries are then those of other positions
(/repo/zfit/minimizers/fitresult.py:132). -/
theorem gradient_unknown_violated :
    ∃ (hv ps : List Key) (g : List ℤ), g.length = hv.length ∧ hv.Nodup ∧ ps.Nodup ∧ ps.length = 2
      ∧ gradientOf hv (some g) (some ps) = .ok (some g) ∧ g.length = 1 := by
  refine ⟨[.par ⟨0, "a"⟩], [.par ⟨1, "b"⟩, .par ⟨0, "a"⟩], [10], ?_⟩
  decide +kernel

/-- C187 violated: a parameter asked for twice is in the answer once (/repo/zfit/minimizers/fitresult.py:132-134). -/
theorem gradient_twice_violated :
    ∃ (hv ps : List Key) (g : List ℤ), g.length = hv.length ∧ hv.Nodup ∧ (∀ p ∈ ps, p ∈ hv) ∧ ps.length = 2
      ∧ gradientOf hv (some g) (some ps) = .ok (some g) ∧ g.length = 1 := by
  refine ⟨[.par ⟨0, "a"⟩], [.par ⟨0, "a"⟩, .par ⟨0, "a"⟩], [10], ?_⟩
  decide +kernel

/-! ## Renaming -/

theorem idxOf_map {f : Key → Key} (l : List Key) (p : Key) (h : ∀ q ∈ l, f q = f p → q = p) : (l.map f).idxOf (f p) = l.idxOf p := by
  induction l with
  | nil => rfl
  | cons q l ih =>
    simp only [List.map_cons, List.idxOf_cons]
    by_cases hq : q = p
    · subst hq; simp
    · have : f q ≠ f p := fun h' => hq (h q (by simp) h')
      simp only [beq_eq_false_iff_ne.2 this, beq_eq_false_iff_ne.2 hq, cond_false]
      rw [ih fun q hm => h q (by simp [hm])]

theorem gradient_map {f : Key → Key} (hv : List Key) (g : Option (List V)) (ps : List Key) (hs : ∀ p ∈ ps, p ∈ hv)
    (hf : ∀ a ∈ hv, ∀ b ∈ hv, f a = f b → a = b) :
    gradientOf (hv.map f) g (some (ps.map f)) = gradientOf hv g (some ps) := by
  unfold gradientOf
  cases g with
  | none => rfl
  | some g =>
    dsimp only
    have hget : ∀ i, (hv.map f)[i]? = hv[i]?.map f := fun i => List.getElem?_map
    have hmem : ∀ q ∈ hv, (f q ∈ ps.map f ↔ q ∈ ps) := by
      intro q hq
      constructor
      · intro h
        obtain ⟨p, hp, e⟩ := List.mem_map.1 h
        exact hf p (hs p hp) q hq e ▸ hp
      · exact List.mem_map_of_mem
    have hidx : ∀ q ∈ hv, (ps.map f).idxOf (f q) = ps.idxOf q := fun q hq =>
      idxOf_map ps q fun p hp e => hf p (hs p hp) q hq e
    have h1 : (List.range (hv.map f).length).filter (fun i => ((hv.map f)[i]?.map fun p => decide (p ∈ ps.map f)).getD false)
        = (List.range hv.length).filter (fun i => (hv[i]?.map fun p => decide (p ∈ ps)).getD false) := by
      rw [List.length_map]
      refine List.filter_congr fun i hi => ?_
      rw [hget]
      cases hq : hv[i]? with
      | none => rfl
      | some q =>
        simp only [Option.map_some, Option.getD_some, decide_eq_decide]
        exact hmem q (List.mem_of_getElem? hq)
    have h2 : (fun i j : ℕ => (((hv.map f)[i]?.map fun p => (ps.map f).idxOf p).getD 0)
        ≤ (((hv.map f)[j]?.map fun p => (ps.map f).idxOf p).getD 0))
        = fun i j : ℕ => ((hv[i]?.map fun p => ps.idxOf p).getD 0) ≤ ((hv[j]?.map fun p => ps.idxOf p).getD 0) := by
      have : ∀ i : ℕ, (((hv.map f)[i]?.map fun p => (ps.map f).idxOf p).getD 0) = ((hv[i]?.map fun p => ps.idxOf p).getD 0) := by
        intro i
        rw [hget]
        cases hq : hv[i]? with
        | none => rfl
        | some q => simp [hidx q (List.mem_of_getElem? hq)]
      funext i j
      rw [this i, this j]
    rw [h1]
    congr 1
    congr 1
    simp only [h2]

theorem get_dictSet {κ ν : Type} [DecidableEq κ] (d : List (κ × ν)) (k k' : κ) (v : ν) :
    dictGet (dictSet d k v) k' = if k' = k then some v else dictGet d k' := by
  by_cases h : k' = k
  · subst h; rw [if_pos rfl, dictGet_set_self]
  · rw [if_neg h, dictGet_set_ne _ _ _ _ h]

theorem get_nameKeys_aux (f : Key × Key → Key × Key) (d : List ((Key × Key) × V)) (hd : (d.map (·.1)).Nodup)
    (k : Key × Key) (hf : ∀ kv ∈ d, f kv.1 = f k → kv.1 = k) (acc : List ((Key × Key) × V)) :
    dictGet (d.foldl (fun acc kv => dictSet acc (f kv.1) kv.2) acc) (f k)
      = (dictGet d k).elim (dictGet acc (f k)) some := by
  induction d generalizing acc with
  | nil => rfl
  | cons kv d ih =>
    simp only [List.map_cons, List.nodup_cons] at hd
    rw [List.foldl_cons, ih hd.2 (fun kv hm => hf kv (by simp [hm]))]
    by_cases h : kv.1 = k
    · subst h
      have : dictGet d kv.1 = none := by
        unfold dictGet
        rw [Option.map_eq_none_iff, List.find?_eq_none]
        intro x hx he
        have he' : x.1 = kv.1 := by simpa using he
        exact hd.1 (List.mem_map.2 ⟨x, hx, he'⟩)
      rw [this]
      simp [dictGet, dictGet_set_self, Option.elim] 
      simpa [dictGet] using dictGet_set_self acc (f kv.1) kv.2
    · have h1 : f k ≠ f kv.1 := fun e => h (hf kv (by simp) e.symm)
      rw [get_dictSet, if_neg h1]
      have : dictGet (kv :: d) k = dictGet d k := by simp [dictGet, h]
      rw [this]

/-- The names instead of the parameters in the keys of a covariance. -/
def nameKey (k : Key × Key) : Key × Key := (.name k.1.label, .name k.2.label)

theorem get_nameKeys (d : List ((Key × Key) × V)) (hd : (d.map (·.1)).Nodup) (k : Key × Key)
    (hf : ∀ kv ∈ d, nameKey kv.1 = nameKey k → kv.1 = k) : dictGet (nameKeys d) (nameKey k) = dictGet d k := by
  have := get_nameKeys_aux nameKey d hd k hf []
  unfold nameKeys
  rw [show (fun (acc : List ((Key × Key) × V)) (kv : (Key × Key) × V) =>
      dictSet acc (Key.name kv.1.1.label, Key.name kv.1.2.label) kv.2) = fun acc kv => dictSet acc (nameKey kv.1) kv.2 from rfl, this]
  cases dictGet d k <;> rfl

theorem toNames_pars (ps : List Par) : toNames (ps.map Key.par) = .ok (ps.map fun p => .name p.name) := by
  induction ps with
  | nil => rfl
  | cons p ps ih => simp [toNames, ih, Except.map]

/-! ## Freezing -/

/-- A calculated covariance: a dictionary by pairs of the parameters of the fit (`matrix_to_dict`, `_covariance_minuit` and
`_covariance_approx` make such dictionaries for the parameters of the result). -/
def ProperCov (ps : List (Par × V)) (d : List ((Key × Key) × V)) : Prop :=
  (d.map (·.1)).Nodup ∧ ∀ kv ∈ d, ∃ a ∈ ps, ∃ b ∈ ps, kv.1 = (.par a.1, .par b.1)

/-- The uses before freezing: errors and covariances, which are calculated for the parameters of the fit. -/
def Op.Before (ps : List (Par × V)) : Op E V → Prop
  | .note _ _ => True
  | .covariance compute _ _ => ∀ m d, compute m = .ok d → ProperCov ps d
  | .freeze => False

theorem before_not_freeze (ps : List (Par × V)) (op : Op E V) (h : op.Before ps) : op.isFreeze = false := by
  cases op with
  | freeze => exact h.elim
  | note it f => rfl
  | covariance c a m => rfl

theorem mem_dictSet {κ ν : Type} [DecidableEq κ] {l : List (κ × ν)} {k : κ} {v : ν} {x : κ × ν} (h : x ∈ dictSet l k v) :
    x ∈ l ∨ x = (k, v) := by
  induction l with
  | nil => simp [dictSet] at h; exact Or.inr h
  | cons y l ih =>
    obtain ⟨k', v'⟩ := y
    unfold dictSet at h
    split at h
    · rename_i hk
      rcases List.mem_cons.1 h with h | h
      · subst hk; exact Or.inr h
      · exact Or.inl (by simp [h])
    · rcases List.mem_cons.1 h with h | h
      · exact Or.inl (by simp [h])
      · rcases ih h with h | h
        · exact Or.inl (by simp [h])
        · exact Or.inr h

theorem covs_run (ps : List (Par × V)) (r : Result E V) (hr : ∀ md ∈ r.covs, ProperCov ps md.2) (ops : List (Op E V))
    (ho : ∀ op ∈ ops, op.Before ps) : ∀ md ∈ (r.run ops).covs, ProperCov ps md.2 := by
  induction ops generalizing r with
  | nil => exact hr
  | cons op ops ih =>
    refine ih (r.after op) ?_ fun o hm => ho o (by simp [hm])
    have hop := ho op (by simp)
    cases op with
    | freeze => exact hop.elim
    | note it f =>
      simp only [Result.after]
      unfold Result.note
      split <;> exact hr
    | covariance compute ask m =>
      simp only [Result.after]
      unfold Result.covariance
      dsimp only
      split
      · exact hr
      · split
        · split
          · rename_i d hd
            intro md hmd
            have := mem_dictSet hmd
            rcases this with h | h
            · exact hr md h
            · subst h; exact hop m d hd
          · exact hr
        · exact hr

theorem nameValues_ok (r : Result E V) (ps qs : List (Par × V)) (hn : (ps.map (·.1.name)).Nodup)
    (hv : r.values = Values.of (ps.map fun pv => (Key.par pv.1, pv.2))) (hq : ∀ x ∈ qs, x ∈ ps) :
    nameValues r (qs.map fun pv => Key.par pv.1) = .ok (qs.map fun pv => (.name pv.1.name, pv.2)) := by
  induction qs with
  | nil => rfl
  | cons x qs ih =>
    have h1 : r.values.get (Item.par x.1) = .ok x.2 := by
      rw [hv]
      exact values_get_par ps hn x.1 x.2 (hq x (by simp)) (.par x.1) rfl
    have h2 := ih fun y hy => hq y (by simp [hy])
    simp only [List.map_cons, nameValues, Key.item, h1, h2]
    rfl

/-- What freezing makes of a result that is not frozen. -/
theorem freeze_fresh (entry : V → E) (ps : List (Par × V)) (hn : (ps.map (·.1.name)).Nodup) (g : Option (List V)) (r : Result E V)
    (h : Fresh entry ps .object g r) :
    r.freeze = ({ loss := .name, minimizer := .name, criterion := .name
                  approxParams := ps.map fun pv => .name pv.1.name
                  gradient := g
                  covs := r.covs.map fun kd => (kd.1, nameKeys kd.2)
                  values := .of (ps.map fun pv => (.name pv.1.name, pv.2))
                  params := r.params.map fun ke => (.name ke.1.label, ke.2) }, .ok ()) := by
  obtain ⟨h1, h2, h3, h4, h5, h6, h7⟩ := h
  unfold Result.freeze
  simp only [h1, h2, h3, h4, Attr.toName]
  have : toNames (Result.make entry ps .object g).approxParams = .ok (ps.map fun pv => .name pv.1.name) := by
    have := toNames_pars (ps.map (·.1))
    simpa [Result.make, List.map_map, Function.comp_def] using this
  simp only [this]
  have hk : r.params.map (·.1) = ps.map fun pv => Key.par pv.1 := by
    rw [h7]; simp [Result.make, Function.comp_def]
  rw [hk, nameValues_ok _ ps ps hn (by dsimp only; rw [h6]; rfl) fun x hx => hx]
  simp only [h5]

theorem par_inj {ps : List (Par × V)} (hn : (ps.map (·.1.name)).Nodup) {a b : Par × V} (ha : a ∈ ps) (hb : b ∈ ps)
    (h : a.1.name = b.1.name) : a = b := List.inj_on_of_nodup_map hn ha hb h

theorem get_map_covs (l : List (String × List ((Key × Key) × V))) (m : String) :
    dictGet (l.map fun kd => (kd.1, nameKeys kd.2)) m = (dictGet l m).map nameKeys := by
  induction l with
  | nil => rfl
  | cons x l ih =>
    by_cases h : x.1 = m
    · simp [dictGet, h]
    · simpa [dictGet, h] using ih

theorem mem_of_dictGet {l : List (String × List ((Key × Key) × V))} {m : String} {d : List ((Key × Key) × V)} (h : dictGet l m = some d) :
    ∃ k, (k, d) ∈ l := by
  unfold dictGet at h
  obtain ⟨x, hx, rfl⟩ := Option.map_eq_some_iff.1 h
  exact ⟨x.1, List.mem_of_find?_eq_some hx⟩

theorem answer_names (ps : List (Par × V)) (hn : (ps.map (·.1.name)).Nodup) (d : List ((Key × Key) × V)) (hd : ProperCov ps d)
    (sub : List (Par × V)) (hs : ∀ x ∈ sub, x ∈ ps) :
    (((sub.map fun x => Key.name x.1.name).flatMap fun a => (sub.map fun x => Key.name x.1.name).map fun b => (a, b)).map
        fun k => (k, dictGet (nameKeys d) k))
      = ((((sub.map fun x => Key.par x.1).flatMap fun a => (sub.map fun x => Key.par x.1).map fun b => (a, b)).map
        fun k => (k, dictGet d k)).map fun kv => (nameKey kv.1, kv.2)) := by
  have e1 : ((sub.map fun x => Key.name x.1.name).flatMap fun a => (sub.map fun x => Key.name x.1.name).map fun b => (a, b))
      = ((sub.map fun x => Key.par x.1).flatMap fun a => (sub.map fun x => Key.par x.1).map fun b => (a, b)).map nameKey := by
    simp only [List.flatMap_map, List.map_flatMap, List.map_map]
    rfl
  rw [e1, List.map_map, List.map_map]
  refine List.map_congr_left fun k hk => ?_
  dsimp only [Function.comp]
  rw [get_nameKeys d hd.1 k]
  intro kv hkv e
  obtain ⟨a, ha, b, hb, hab⟩ := hd.2 kv hkv
  simp only [List.mem_flatMap, List.mem_map] at hk
  obtain ⟨_, ⟨x, hx, rfl⟩, _, ⟨y, hy, rfl⟩, rfl⟩ := hk
  rw [hab] at e ⊢
  simp only [nameKey, Key.label, Prod.mk.injEq, Key.name.injEq] at e
  rw [par_inj hn ha (hs x hx) e.1, par_inj hn hb (hs y hy) e.2]

/-- C185, proved.  Freezing a result that was made with a criterion works and keeps what the result knows: whatever errors and covariances
were calculated before, each entry of `params` is found by parameter or name as before; the values are at the same positions;
the covariances that were calculated are the same, asked for by the names of the parameters, or all; so is the gradient; and what
was not calculated is refused. -/
theorem freeze_keeps (entry : V → E) (ps : List (Par × V)) (hn : (ps.map (·.1.name)).Nodup) (g : Option (List V))
    (ops : List (Op E V)) (ho : ∀ op ∈ ops, op.Before ps)
    (compute : String → Except Err (List ((Key × Key) × V))) :
    let r := (Result.make entry ps .object g).run ops
    let r' := r.freeze.1
    r.freeze.2 = .ok ()
      ∧ (∀ it, paramsGet r'.params it = paramsGet r.params it)
      ∧ (∀ i, r'.values.get (.pos i) = r.values.get (.pos i))
      ∧ (∀ m d (sub : List (Par × V)), dictGet r.covs m = some d → (∀ x ∈ sub, x ∈ ps) →
          (r'.covariance compute (some (sub.map fun x => .name x.1.name)) m).2
              = (r.covariance compute (some (sub.map fun x => .par x.1)) m).2.map (fun l => l.map fun kv => (nameKey kv.1, kv.2))
            ∧ (r'.covariance compute none m).2
              = (r.covariance compute none m).2.map (fun l => l.map fun kv => (nameKey kv.1, kv.2)))
      ∧ (∀ m ask, dictGet r.covs m = none → r'.covariance compute ask m = (r', .error .attributeError))
      ∧ (∀ sub : List (Par × V), (∀ x ∈ sub, x ∈ ps) →
          gradientOf r'.approxParams r'.gradient (some (sub.map fun x => .name x.1.name))
            = gradientOf r.approxParams r.gradient (some (sub.map fun x => .par x.1)))
      ∧ gradientOf r'.approxParams r'.gradient none = gradientOf r.approxParams r.gradient none := by
  intro r r'
  have hf : Fresh entry ps .object g r :=
    fresh_run entry ps .object g _ (fresh_make entry ps .object g) ops fun op h => before_not_freeze ps op (ho op h)
  have hc : ∀ md ∈ r.covs, ProperCov ps md.2 := covs_run ps _ (by simp [Result.make]) ops ho
  have hr := freeze_fresh entry ps hn g r hf
  have hr' : r' = _ := congrArg Prod.fst hr
  have hkeys : r.params.map (·.1) = ps.map fun pv => Key.par pv.1 := by
    rw [hf.2.2.2.2.2.2]; simp [Result.make, Function.comp_def]
  refine ⟨by rw [hr], ?_, ?_, ?_, ?_, ?_, ?_⟩
  · intro it
    rw [paramsGet_eq, paramsGet_eq, freeze_named r]
  · intro i
    rw [hr', hf.2.2.2.2.2.1, make_values_pos]
    unfold Values.get resolve
    simp only [Item.label?, Values.below, Values.of, List.map_map, Function.comp_def]
  · intro m d sub hm hs
    have hp : ProperCov ps d := by
      obtain ⟨k, hk⟩ := mem_of_dictGet hm
      exact hc (k, d) hk
    have hm' : dictGet r'.covs m = some (nameKeys d) := by
      rw [hr']; dsimp only; rw [get_map_covs, hm]; rfl
    have hk' : r'.params.map (·.1) = ps.map fun x => Key.name x.1.name := by
      rw [hr']
      dsimp only
      have : (r.params.map fun ke => ((Key.name ke.1.label, ke.2) : Key × E)).map (·.1)
          = (r.params.map (·.1)).map fun k => Key.name k.label := by simp [List.map_map, Function.comp_def]
      rw [this, hkeys, List.map_map]
      rfl
    unfold Result.covariance
    simp only [hm, hm', Option.getD_some, Option.getD_none, hk', hkeys, Except.map]
    exact ⟨congrArg Except.ok (answer_names ps hn d hp sub hs), congrArg Except.ok (answer_names ps hn d hp ps fun x h => h)⟩
  · intro m ask hm
    have hm' : dictGet r'.covs m = none := by
      rw [hr']; dsimp only; rw [get_map_covs, hm]; rfl
    have hl : r'.loss = .name := by rw [hr']
    unfold Result.covariance
    simp only [hm', hl]
    rfl
  · intro sub hs
    have e1 : r'.approxParams = r.approxParams.map fun k => Key.name k.label := by
      rw [hr', hf.2.2.2.1]
      simp [Result.make, Function.comp_def, Key.label]
    have e2 : (sub.map fun x => Key.name x.1.name) = (sub.map fun x => Key.par x.1).map fun k => Key.name k.label := by
      simp [Function.comp_def, Key.label]
    have e3 : r'.gradient = r.gradient := by rw [hr', hf.2.2.2.2.1]
    have e4 : r.approxParams = ps.map fun pv => Key.par pv.1 := by rw [hf.2.2.2.1]; rfl
    rw [e1, e2, e3]
    refine gradient_map _ _ _ ?_ ?_
    · intro k hk
      obtain ⟨x, hx, rfl⟩ := List.mem_map.1 hk
      rw [e4]
      exact List.mem_map.2 ⟨x, hs x hx, rfl⟩
    · intro a ha b hb e
      rw [e4] at ha hb
      obtain ⟨x, hx, rfl⟩ := List.mem_map.1 ha
      obtain ⟨y, hy, rfl⟩ := List.mem_map.1 hb
      have : x.1.name = y.1.name := by simpa [Key.label] using e
      rw [par_inj hn hx hy this]
  · rw [hr', hf.2.2.2.2.1]
    unfold gradientOf
    cases g <;> rfl

/-- Two parameters, a covariance and an error before, frozen, and everything asked for by name. -/
example :
    let mu : Par := ⟨0, "mu"⟩
    let sigma : Par := ⟨1, "sigma"⟩
    let cov : String → Except Err (List ((Key × Key) × ℤ)) := fun _ =>
      .ok [((.par mu, .par mu), 1), ((.par mu, .par sigma), 2), ((.par sigma, .par mu), 2), ((.par sigma, .par sigma), 4)]
    let r := (Result.make (E := List ℤ) (fun v => [v]) [(mu, 5), (sigma, 2)] .object (some [7, 8])).run
      [.covariance cov none "hesse_np", .note (.par mu) (· ++ [3])]
    let r' := r.freeze.1
    r.freeze.2 = .ok () ∧ paramsGet r'.params (.name "mu") = .ok [5, 3]
      ∧ (r'.covariance cov (some [.name "sigma", .name "mu"]) "hesse_np").2
          = .ok [((.name "sigma", .name "sigma"), some 4), ((.name "sigma", .name "mu"), some 2), ((.name "mu", .name "sigma"), some 2),
                 ((.name "mu", .name "mu"), some 1)]
      ∧ (r'.covariance cov none "approx").2 = .error .attributeError
      ∧ gradientOf r'.approxParams r'.gradient (some [.name "sigma"]) = .ok (some [8]) := by
  decide +kernel

/-- C186, in part.  For a result made with a criterion, whatever was done before, freezing either works or leaves the result as it was.
Missing: results without a criterion (`freeze_half_violated`). -/
theorem freeze_atomic_partial (entry : V → E) (ps : List (Par × V)) (hn : (ps.map (·.1.name)).Nodup) (g : Option (List V))
    (ops : List (Op E V)) :
    let r := (Result.make entry ps .object g).run ops
    r.freeze.2 = .ok () ∨ r.freeze = (r, .error .attributeError) := by
  intro r
  have key : ∀ (ops : List (Op E V)) (r : Result E V), (Fresh entry ps .object g r ∨ r.loss = .name) →
      (Fresh entry ps .object g (r.run ops) ∨ (r.run ops).loss = .name) := by
    intro ops
    induction ops with
    | nil => intro r h; exact h
    | cons op ops ih =>
      intro r h
      refine ih (r.after op) ?_
      rcases h with h | h
      · cases hb : op.isFreeze with
        | false => exact Or.inl (fresh_after entry ps .object g r h op hb)
        | true =>
          cases op with
          | freeze => right; simp only [Result.after]; rw [freeze_fresh entry ps hn g r h]
          | note it f => cases hb
          | covariance c a m => cases hb
      · right
        cases op with
        | freeze =>
          simp only [Result.after]
          unfold Result.freeze
          simp only [h, Attr.toName]
        | note it f =>
          simp only [Result.after]
          unfold Result.note
          split <;> exact h
        | covariance c a m =>
          simp only [Result.after]
          unfold Result.covariance
          dsimp only
          split
          · exact h
          · split
            · split <;> exact h
            · exact h
  rcases key ops _ (Or.inl (fresh_make entry ps .object g)) with h | h
  · left
    rw [freeze_fresh entry ps hn g r h]
  · right
    show Result.freeze r = _
    have h : r.loss = .name := h
    unfold Result.freeze
    simp only [h, Attr.toName]

/-- Frozen twice. -/
example :
    let r := (Result.make (E := List ℤ) (fun v => [v]) [((⟨0, "mu"⟩ : Par), (5 : ℤ))] .object none).run [.freeze]
    r.freeze = (r, .error .attributeError) := by
  decide +kernel

/-- C186 violated: freezing a result without a criterion, which the constructor accepts, raises an `AttributeError` after the loss and the
minimiser have been replaced by their names (/repo/zfit/minimizers/fitresult.py:1515-1517): the result is not frozen, but no
covariance can be calculated any more. -/
theorem freeze_half_violated :
    ∃ (ps : List (Par × ℤ)) (compute : String → Except Err (List ((Key × Key) × ℤ))),
      let r := Result.make (E := Unit) (fun _ => ()) ps .none none
      r.freeze.2 = .error .attributeError ∧ r.freeze.1 ≠ r ∧ r.freeze.1.params = r.params
        ∧ (r.covariance compute none "hesse_np").2.toBool = true
        ∧ (r.freeze.1.covariance compute none "hesse_np").2 = .error .attributeError := by
  refine ⟨[(⟨0, "mu"⟩, 5)], fun _ => .ok [], ?_⟩
  decide +kernel

end Zfit.Acc
