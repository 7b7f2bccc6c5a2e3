import Verif.Fun.Spec
import Verif.Functor.ProductProps

/-!
# Properties of functions

* C149 `value_by_name`, `value_missing`, `value_order`, `value_array`
* C150 `reported_partial`, `reported_functor_violated`, `reported_clash_violated`
* C151 `as_pdf_partial`, `as_pdf_functor_violated`, `as_pdf_extended_violated`
* C152 `limits_partial`, `limits_scale_violated`, `limits_sum_violated`
* C154 `copy_violated`
-/

namespace Zfit.Fun

open Zfit

variable {R I : Type}

/-! ### Induction over expressions -/

/-- Induction over expressions, with the claim for every part of a sum or product. -/
theorem Expr.ind {P : Expr R I → Prop} (hf : ∀ s ps w f, P (.func s ps w f)) (hs : ∀ p e, P e → P (.scale p e))
    (hsum : ∀ es, (∀ e ∈ es, P e) → P (.sum es)) (hprod : ∀ es, (∀ e ∈ es, P e) → P (.prod es)) (e : Expr R I) : P e :=
  Expr.rec (motive_1 := P) (motive_2 := fun es => ∀ e ∈ es, P e) hf hs hsum hprod (by simp)
    (fun e es he hes e' he' => by
      rcases List.mem_cons.1 he' with rfl | h
      · exact he
      · exact hes e' h) e

theorem sortX_ok {obs : List String} {x : List (String × R)} {v : String → R} (h : ∀ o ∈ obs, dictGet x o = some (v o)) :
    sortX obs x = .ok (obs.map (fun o => (o, v o))) := by
  unfold sortX
  exact mapM_ok_of_forall _ _ _ (fun o ho => by rw [h o ho])

theorem sortX_missing {obs : List String} {x : List (String × R)} (h : ∃ o ∈ obs, dictGet x o = none) :
    sortX obs x = .error .obsIncompatible := by
  unfold sortX
  induction obs with
  | nil => simp at h
  | cons a obs ih =>
    rw [List.mapM_cons]
    rcases hx : dictGet x a with _ | b
    · rfl
    · obtain ⟨o, ho, hn⟩ := h
      have : o ∈ obs := by
        rcases List.mem_cons.1 ho with rfl | ho
        · rw [hx] at hn; cases hn
        · exact ho
      rw [ih ⟨o, this, hn⟩]
      rfl

theorem dictGet_map (obs : List String) (v : String → R) {o : String} (h : o ∈ obs) :
    dictGet (obs.map (fun o => (o, v o))) o = some (v o) := by
  induction obs with
  | nil => cases h
  | cons a obs ih =>
    unfold dictGet
    rw [List.map_cons, List.find?_cons]
    by_cases ha : a = o
    · subst ha; simp
    · simp only [ha, decide_false]
      rcases List.mem_cons.1 h with h | h
      · exact absurd h.symm ha
      · exact ih h

theorem callValue_toOption (r : Except Err R) : (callValue r).toOption = r.toOption := by
  unfold callValue
  split <;> rfl

theorem callUser_eq (w : Bool) (r : Except Err R) : callUser w r = r := by
  cases w <;> rcases r with e | v <;> simp [callUser]
  cases e <;> rfl

theorem combine_obs [DecidableEq I] {ss : List (Spc I)} {s : Spc I} (h : combine ss = .ok s) :
    s.obs = Functor.commonObs (ss.map (·.obs)) := by
  unfold combine at h
  dsimp only at h
  split at h
  · cases h
  split at h
  · cases h; rfl
  split at h
  · cases h
  split at h <;> (cases h; rfl)

theorem mem_commonObs (obss : List (List String)) (o : String) : o ∈ Functor.commonObs obss ↔ ∃ os ∈ obss, o ∈ os := by
  rw [Functor.commonObs_eq, Functor.mem_add_obs]
  simp

variable [Add R] [Zero R] [Mul R] [One R] [DecidableEq I]

theorem buildAll_ok {es : List (Expr R I)} {fs : List (Func R I)} (h : buildAll es = .ok fs) :
    List.Forall₂ (fun e f => build e = .ok f) es fs := by
  induction es generalizing fs with
  | nil => cases h; exact .nil
  | cons e es ih =>
    unfold buildAll at h
    obtain ⟨f, hf, h⟩ := bind_eq_ok.1 h
    obtain ⟨fs', hfs, h⟩ := bind_eq_ok.1 h
    cases h
    exact .cons hf (ih hfs)

theorem buildAll_of {es : List (Expr R I)} {fs : List (Func R I)} (h : List.Forall₂ (fun e f => build e = .ok f) es fs) :
    buildAll es = .ok fs := by
  induction h with
  | nil => rfl
  | cons h1 _ ih =>
    unfold buildAll
    rw [h1, except_bind_ok, ih]
    rfl

omit [DecidableEq I] in
theorem mulParam_ok {p : String} {g F : Func R I} (h : mulParam p g = .ok F) :
    F = .simple ⟨g.space.obs, none⟩ ((dictUpdate [(p, p)] g.params).filter (fun kv => kv.1 ≠ "name")) false
      (fun θ xs => do return θ p * (← eval θ g (g.space.obs.zip xs))) := by
  unfold mulParam at h
  dsimp only at h
  split at h
  · cases h
  · cases h; rfl

theorem dictSet_key_iff (d : List (String × String)) (k v k0 : String) : k0 ∈ (dictSet d k v).map (·.1) ↔ k0 = k ∨ k0 ∈ d.map (·.1) := by
  induction d with
  | nil => simp [dictSet]
  | cons kv d ih =>
    unfold dictSet
    by_cases h : kv.1 = k
    · subst h
      simp
    · rw [if_neg h, List.map_cons, List.mem_cons, ih, List.map_cons, List.mem_cons]
      tauto

theorem dictUpdate_key_iff (d e : List (String × String)) (k0 : String) : k0 ∈ (dictUpdate d e).map (·.1) ↔ k0 ∈ d.map (·.1) ∨ k0 ∈ e.map (·.1) := by
  unfold dictUpdate
  induction e generalizing d with
  | nil => simp
  | cons kv e ih =>
    rw [List.foldl_cons, ih, dictSet_key_iff, List.map_cons, List.mem_cons]
    tauto

omit [DecidableEq I] in
/-- C150: a parameter times a function is accepted unless the parameter, or the keyword of a parameter of the function, is called `obs`, `func` or `self`;
then a `TypeError` is raised. -/
theorem scale_accepted_iff (p : String) (g : Func R I) :
    ((∃ F, mulParam p g = .ok F) ↔ ∀ k ∈ ["obs", "func", "self"], k ≠ p ∧ k ∉ g.params.map (·.1)) ∧
      ∀ e, mulParam p g = .error e → e = .typeError := by
  have hany : ((dictUpdate [(p, p)] g.params).any fun kv => kv.1 = "obs" || kv.1 = "func" || kv.1 = "self") = true ↔
      ∃ k ∈ ["obs", "func", "self"], k ∈ (dictUpdate [(p, p)] g.params).map (·.1) := by
    rw [List.any_eq_true]
    constructor
    · rintro ⟨kv, h1, h2⟩
      refine ⟨kv.1, ?_, List.mem_map.2 ⟨kv, h1, rfl⟩⟩
      simpa [or_assoc] using h2
    · rintro ⟨k, h1, h2⟩
      obtain ⟨kv, h3, rfl⟩ := List.mem_map.1 h2
      exact ⟨kv, h3, by simpa [or_assoc] using h1⟩
  unfold mulParam
  dsimp only
  split
  · rename_i h
    refine ⟨⟨by rintro ⟨F, ⟨⟩⟩, fun h0 => ?_⟩, by rintro e ⟨⟩; rfl⟩
    obtain ⟨k, hk, hm⟩ := hany.1 h
    rw [dictUpdate_key_iff] at hm
    rcases hm with hm | hm
    · exact absurd (by simpa using hm) (h0 k hk).1
    · exact absurd hm (h0 k hk).2
  · rename_i h
    refine ⟨⟨fun _ k hk => ?_, fun _ => ⟨_, rfl⟩⟩, by rintro e ⟨⟩⟩
    have hk' : k ∉ (dictUpdate [(p, p)] g.params).map (·.1) := fun hm => h (hany.2 ⟨k, hk, hm⟩)
    rw [dictUpdate_key_iff, not_or] at hk'
    exact ⟨by simpa using hk'.1, hk'.2⟩

/-- Both cases: any name, and the name of a keyword. -/
example (s : Spc ℕ) (f : (String → ℤ) → List ℤ → Except Err ℤ) :
    (∃ F, mulParam "scale" (Func.simple s [("mu", "mean")] false f) = .ok F) ∧ mulParam "func" (Func.simple s [] false f) = .error .typeError :=
  ⟨⟨_, rfl⟩, rfl⟩

theorem zip_map_self (obs : List String) (v : String → R) : obs.zip (obs.map v) = obs.map (fun o => (o, v o)) := by
  induction obs with
  | nil => rfl
  | cons a obs ih => simp [ih]

theorem evalAll_denote (θ : String → R) (v : String → R) (x : List (String × R)) {es : List (Expr R I)} {fs : List (Func R I)}
    (h : List.Forall₂ (fun e f => (eval θ f x).toOption = denote θ v e) es fs) :
    (evalAll θ fs x).toOption = denoteAll θ v es := by
  induction h with
  | nil => rfl
  | @cons e f es fs h1 _ ih =>
    unfold evalAll denoteAll
    rw [← h1, ← ih]
    rcases eval θ f x with e | a
    · rfl
    · rcases evalAll θ fs x with e | as <;> rfl

theorem toOption_map_sum (r : Except Err (List R)) (g : List R → R) :
    (do return g (← r) : Except Err R).toOption = r.toOption.map g := by
  rcases r with e | a <;> rfl

/-- C149: the value of a function made of others is the one of the formula, where each observable has the value that the event has
for its name: whatever the order of the observables in the event and in the functions, and whatever else the event contains. -/
theorem value_by_name (θ : String → R) (e : Expr R I) (F : Func R I) (hF : build e = .ok F) (x : List (String × R)) (v : String → R)
    (hx : ∀ o ∈ F.space.obs, dictGet x o = some (v o)) : (eval θ F x).toOption = denote θ v e := by
  induction e using Expr.ind generalizing F x with
  | hf s ps w f =>
    cases hF
    show (eval θ (.simple s ps w f) x).toOption = _
    unfold eval denote
    rw [sortX_ok (obs := s.obs) hx, except_bind_ok, callValue_toOption, callUser_eq, List.map_map]
    rfl
  | hs p e ih =>
    unfold build at hF
    obtain ⟨g, hg, hF⟩ := bind_eq_ok.1 hF
    have := mulParam_ok hF
    subst this
    unfold eval denote
    rw [sortX_ok (obs := g.space.obs) hx, except_bind_ok, callValue_toOption, callUser_eq, List.map_map]
    have hx' : ∀ o ∈ g.space.obs, dictGet (g.space.obs.zip (g.space.obs.map v)) o = some (v o) := by
      intro o ho
      rw [zip_map_self]
      exact dictGet_map _ v ho
    have h := ih g hg _ hx'
    rw [← h]
    show Except.toOption (do return θ p * (← eval θ g (g.space.obs.zip (g.space.obs.map v)))) = _
    rcases eval θ g (g.space.obs.zip (g.space.obs.map v)) with e | a <;> rfl
  | hsum es ih =>
    unfold build at hF
    obtain ⟨fs, hfs, hF⟩ := bind_eq_ok.1 hF
    obtain ⟨s, hs, hF⟩ := bind_eq_ok.1 hF
    cases hF
    unfold eval denote
    rw [sortX_ok (obs := s.obs) hx, except_bind_ok, callValue_toOption, toOption_map_sum]
    congr 1
    apply evalAll_denote
    have hall := buildAll_ok hfs
    rw [List.forall₂_iff_get] at hall ⊢
    refine ⟨hall.1, fun i hi hi' => ih _ (List.get_mem _ _) _ (hall.2 i hi hi') _ (fun o ho => ?_)⟩
    apply dictGet_map
    show o ∈ s.obs
    rw [combine_obs hs, mem_commonObs]
    exact ⟨_, List.mem_map.2 ⟨_, List.mem_map.2 ⟨_, List.get_mem fs ⟨i, hi'⟩, rfl⟩, rfl⟩, ho⟩
  | hprod es ih =>
    unfold build at hF
    obtain ⟨fs, hfs, hF⟩ := bind_eq_ok.1 hF
    obtain ⟨s, hs, hF⟩ := bind_eq_ok.1 hF
    cases hF
    unfold eval denote
    rw [sortX_ok (obs := s.obs) hx, except_bind_ok, callValue_toOption, toOption_map_sum]
    congr 1
    apply evalAll_denote
    have hall := buildAll_ok hfs
    rw [List.forall₂_iff_get] at hall ⊢
    refine ⟨hall.1, fun i hi hi' => ih _ (List.get_mem _ _) _ (hall.2 i hi hi') _ (fun o ho => ?_)⟩
    apply dictGet_map
    show o ∈ s.obs
    rw [combine_obs hs, mem_commonObs]
    exact ⟨_, List.mem_map.2 ⟨_, List.mem_map.2 ⟨_, List.get_mem fs ⟨i, hi'⟩, rfl⟩, rfl⟩, ho⟩

omit [DecidableEq I] in
/-- C149: an event without one of the observables is refused. -/
theorem value_missing (θ : String → R) (F : Func R I) (x : List (String × R)) (h : ∃ o ∈ F.space.obs, dictGet x o = none) :
    eval θ F x = .error .obsIncompatible := by
  cases F <;> unfold eval <;> simp only [Func.space] at h <;> rw [sortX_missing h] <;> rfl

omit [DecidableEq I] in
/-- C149: two events with the same values for the observables of the function give the same. -/
theorem value_order (θ : String → R) (F : Func R I) (x y : List (String × R)) (h : ∀ o ∈ F.space.obs, dictGet x o = dictGet y o) :
    eval θ F x = eval θ F y := by
  have : ∀ obs : List String, (∀ o ∈ obs, dictGet x o = dictGet y o) → sortX obs x = sortX obs y := by
    intro obs h
    unfold sortX
    induction obs with
    | nil => rfl
    | cons a obs ih =>
      rw [List.mapM_cons, List.mapM_cons, h a List.mem_cons_self, ih (fun o ho => h o (List.mem_cons_of_mem _ ho))]
  cases F <;> unfold eval <;> simp only [Func.space] at h <;> rw [this _ h]

/-- C149: the columns of an array are the observables of the function, in their order. -/
theorem value_array (θ : String → R) (e : Expr R I) (F : Func R I) (hF : build e = .ok F) (xs : List R)
    (hlen : xs.length = F.space.obs.length) (v : String → R) (hx : F.space.obs.map v = xs) :
    (evalArray θ F xs).toOption = denote θ v e := by
  unfold evalArray
  rw [if_pos hlen]
  apply value_by_name θ e F hF
  intro o ho
  rw [← hx, zip_map_self]
  exact dictGet_map _ v ho

/-! ## C150 -/

mutual
/-- Where it works: a parameter is multiplied with a function of the user, or such a product, only, and its name is neither one of
the keywords of the parameters of that function nor "name". -/
def Direct : Expr R I → Prop
  | .func _ _ _ _ => True
  | .scale p e => Direct e ∧ (∃ g, build e = .ok g ∧ (∃ s ps w f, g = .simple s ps w f) ∧ ∀ kv ∈ g.params, kv.1 ≠ p ∧ kv.1 ≠ "name")
      ∧ p ≠ "name"
  | .sum es => DirectAll es
  | .prod es => DirectAll es
/-- All of them. -/
def DirectAll : List (Expr R I) → Prop
  | [] => True
  | e :: es => Direct e ∧ DirectAll es
end

theorem directAll_iff (es : List (Expr R I)) : DirectAll es ↔ ∀ e ∈ es, Direct e := by
  induction es with
  | nil => simp [DirectAll]
  | cons e es ih => simp [DirectAll, ih]

theorem dictSet_values (d : List (String × String)) (k v : String) (h : ∀ kv ∈ d, kv.1 ≠ k) : dictSet d k v = d ++ [(k, v)] := by
  induction d with
  | nil => rfl
  | cons a d ih =>
    obtain ⟨k', v'⟩ := a
    have := h (k', v') List.mem_cons_self
    simp only [ne_eq] at this
    simp only [dictSet, this, if_false, ih (fun kv hkv => h kv (List.mem_cons_of_mem _ hkv)), List.cons_append]

theorem mem_dictSet (d : List (String × String)) (k v : String) {kv : String × String} (h : kv ∈ d) (hk : kv.1 ≠ k) :
    kv ∈ dictSet d k v := by
  induction d with
  | nil => cases h
  | cons a d ih =>
    obtain ⟨k', v'⟩ := a
    simp only [dictSet]
    rcases List.mem_cons.1 h with rfl | h
    · simp only [ne_eq] at hk
      rw [if_neg hk]; exact List.mem_cons_self
    · split
      · exact List.mem_cons_of_mem _ h
      · exact List.mem_cons_of_mem _ (ih h)

theorem mem_dictSet_self (d : List (String × String)) (k v : String) : (k, v) ∈ dictSet d k v := by
  induction d with
  | nil => simp [dictSet]
  | cons a d ih =>
    obtain ⟨k', v'⟩ := a
    simp only [dictSet]
    split
    · rename_i h; subst h; exact List.mem_cons_self
    · exact List.mem_cons_of_mem _ ih

theorem mem_dictUpdate_left (d e : List (String × String)) {kv : String × String} (h : kv ∈ d) (hk : ∀ kv' ∈ e, kv'.1 ≠ kv.1) :
    kv ∈ dictUpdate d e := by
  unfold dictUpdate
  induction e generalizing d with
  | nil => exact h
  | cons a e ih =>
    rw [List.foldl_cons]
    exact ih _ (mem_dictSet _ _ _ h (fun hh => hk a List.mem_cons_self hh.symm)) (fun kv' h' => hk kv' (List.mem_cons_of_mem _ h'))

/-- Every parameter of the updating dictionary with keywords of its own is in the result. -/
theorem mem_dictUpdate_right (d e : List (String × String)) {kv : String × String} (h : kv ∈ e) (hnd : (e.map (·.1)).Nodup) :
    kv ∈ dictUpdate d e := by
  unfold dictUpdate
  induction e generalizing d with
  | nil => cases h
  | cons a e ih =>
    rw [List.foldl_cons]
    rw [List.map_cons, List.nodup_cons] at hnd
    rcases List.mem_cons.1 h with rfl | h
    · exact mem_dictUpdate_left _ e (mem_dictSet_self d kv.1 kv.2) (fun kv' h' heq => hnd.1 (heq ▸ List.mem_map.2 ⟨kv', h', rfl⟩))
    · exact ih _ h hnd.2

theorem mem_reportedAll {fs : List (Func R I)} {f : Func R I} (h : f ∈ fs) {q : String} (hq : q ∈ reported f) :
    q ∈ reportedAll fs := by
  induction fs with
  | nil => cases h
  | cons a fs ih =>
    unfold reportedAll
    rcases List.mem_cons.1 h with rfl | h
    · exact List.mem_append_left _ hq
    · exact List.mem_append_right _ (ih h)

theorem evalAll_congr (θ θ' : String → R) (x : List (String × R)) {fs : List (Func R I)} (h : ∀ f ∈ fs, eval θ f x = eval θ' f x) :
    evalAll θ fs x = evalAll θ' fs x := by
  induction fs with
  | nil => rfl
  | cons f fs ih =>
    unfold evalAll
    rw [h f List.mem_cons_self, ih (fun f' h' => h f' (List.mem_cons_of_mem _ h'))]

theorem dictSet_keys (d : List (String × String)) (k v : String) (h : (d.map (·.1)).Nodup) : ((dictSet d k v).map (·.1)).Nodup := by
  induction d with
  | nil => simp [dictSet]
  | cons a d ih =>
    obtain ⟨k', v'⟩ := a
    simp only [List.map_cons, List.nodup_cons] at h
    simp only [dictSet]
    split
    · rename_i hk; subst hk
      simpa using h
    · rename_i hk
      simp only [List.map_cons, List.nodup_cons]
      refine ⟨fun hm => ?_, ih h.2⟩
      obtain ⟨kv, hkv, he⟩ := List.mem_map.1 hm
      have : ∀ kv ∈ dictSet d k v, kv.1 = k ∨ kv.1 ∈ d.map (·.1) := by
        clear ih h hm hkv he kv
        induction d with
        | nil => simp [dictSet]
        | cons b d ih =>
          intro kv hkv
          obtain ⟨k2, v2⟩ := b
          simp only [dictSet] at hkv
          split at hkv
          · rename_i h2; subst h2
            rcases List.mem_cons.1 hkv with rfl | hkv
            · exact .inl rfl
            · exact .inr (List.mem_map.2 ⟨kv, List.mem_cons_of_mem _ hkv, rfl⟩)
          · rcases List.mem_cons.1 hkv with rfl | hkv
            · exact .inr (List.mem_map.2 ⟨_, List.mem_cons_self, rfl⟩)
            · rcases ih kv hkv with h | h
              · exact .inl h
              · exact .inr (List.mem_cons_of_mem _ h)
      rcases this kv hkv with h1 | h1
      · exact hk (he.symm.trans h1)
      · exact h.1 (he ▸ h1)

theorem dictUpdate_keys (d e : List (String × String)) (h : (d.map (·.1)).Nodup) : ((dictUpdate d e).map (·.1)).Nodup := by
  unfold dictUpdate
  induction e generalizing d with
  | nil => exact h
  | cons a e ih => exact ih _ (dictSet_keys _ _ _ h)

theorem build_keys {e : Expr R I} (hk : ∀ l ∈ leaves e, (l.2.1.map (·.1)).Nodup) {F : Func R I} (h : build e = .ok F) :
    (F.params.map (·.1)).Nodup := by
  cases e with
  | func s ps w f =>
    cases h
    exact hk (s, ps, f) (by simp [leaves])
  | scale p e =>
    unfold build at h
    obtain ⟨g, hg, h⟩ := bind_eq_ok.1 h
    rw [mulParam_ok h]
    exact List.Nodup.sublist (List.Sublist.map _ List.filter_sublist) (dictUpdate_keys _ _ (by simp))
  | sum es =>
    unfold build at h
    obtain ⟨fs, hfs, h⟩ := bind_eq_ok.1 h
    obtain ⟨s, hs, h⟩ := bind_eq_ok.1 h
    cases h
    exact List.nodup_nil
  | prod es =>
    unfold build at h
    obtain ⟨fs, hfs, h⟩ := bind_eq_ok.1 h
    obtain ⟨s, hs, h⟩ := bind_eq_ok.1 h
    cases h
    exact List.nodup_nil

omit [Add R] [Zero R] [Mul R] [One R] [DecidableEq I] in
theorem mem_leavesAll {es : List (Expr R I)} {e : Expr R I} (h : e ∈ es) {l} (hl : l ∈ leaves e) : l ∈ leavesAll es := by
  induction es with
  | nil => cases h
  | cons a es ih =>
    unfold leavesAll
    rcases List.mem_cons.1 h with rfl | h
    · exact List.mem_append_left _ hl
    · exact List.mem_append_right _ (ih h)

/-- C150, the part that holds: the value depends on the reported parameters only, if parameters are multiplied with functions of the
user only, and with other names than the keywords. Missing from the full claim: the cases of `reported_functor_violated`,
`reported_clash_violated`. -/
theorem reported_partial (e : Expr R I) (hd : Direct e) (hh : ∀ l ∈ leaves e, Honest l.2.1 l.2.2)
    (hk : ∀ l ∈ leaves e, (l.2.1.map (·.1)).Nodup) (F : Func R I)
    (hF : build e = .ok F) (θ θ' : String → R) (h : ∀ q ∈ reported F, θ q = θ' q) (x : List (String × R)) :
    eval θ F x = eval θ' F x := by
  induction e using Expr.ind generalizing F x with
  | hf s ps w f =>
    cases hF
    unfold eval
    have hf : f θ = f θ' := hh (s, ps, f) (by simp [leaves]) θ θ' (fun kv hkv => h _ (by
      unfold reported
      exact List.mem_map.2 ⟨kv, hkv, rfl⟩))
    rw [hf]
  | hs p e ih =>
    unfold build at hF
    obtain ⟨g, hg, hF⟩ := bind_eq_ok.1 hF
    have := mulParam_ok hF
    subst this
    unfold Direct at hd
    obtain ⟨hd1, ⟨g', hg', ⟨s, ps, w, f, hgs⟩, hkeys⟩, hname⟩ := hd
    rw [hg] at hg'
    cases hg'
    unfold reported at h
    have hp : θ p = θ' p := by
      apply h
      refine List.mem_map.2 ⟨(p, p), List.mem_filter.2 ⟨mem_dictUpdate_left _ _ (by simp) (fun kv hkv => (hkeys kv hkv).1), ?_⟩, rfl⟩
      simpa using hname
    have hrest : ∀ q ∈ reported g, θ q = θ' q := by
      intro q hq
      subst hgs
      unfold reported at hq
      obtain ⟨kv, hkv, rfl⟩ := List.mem_map.1 hq
      apply h
      refine List.mem_map.2 ⟨kv, List.mem_filter.2 ⟨mem_dictUpdate_right _ _ hkv (build_keys (by simpa [leaves] using hk) hg), ?_⟩, rfl⟩
      simpa using (hkeys kv hkv).2
    have hev : ∀ y, eval θ g y = eval θ' g y := fun y =>
      ih hd1 (by simpa [leaves] using hh) (by simpa [leaves] using hk) g hg hrest y
    unfold eval
    simp only [hev, hp]
  | hsum es ih =>
    unfold build at hF
    obtain ⟨fs, hfs, hF⟩ := bind_eq_ok.1 hF
    obtain ⟨s, hs, hF⟩ := bind_eq_ok.1 hF
    cases hF
    unfold eval
    have hall := buildAll_ok hfs
    have : ∀ y, evalAll θ fs y = evalAll θ' fs y := by
      intro y
      apply evalAll_congr
      intro f hf
      obtain ⟨i, hi, rfl⟩ := List.getElem_of_mem hf
      rw [List.forall₂_iff_get] at hall
      have hie : i < es.length := hall.1 ▸ hi
      refine ih es[i] (List.getElem_mem _) ((directAll_iff es).1 (by unfold Direct at hd; exact hd) _ (List.getElem_mem _))
        (fun l hl => hh l (by unfold leaves; exact mem_leavesAll (List.getElem_mem hie) hl))
        (fun l hl => hk l (by unfold leaves; exact mem_leavesAll (List.getElem_mem hie) hl)) _ (hall.2 i hie hi) (fun q hq => h q ?_) y
      unfold reported
      exact mem_reportedAll hf hq
    simp only [this]
  | hprod es ih =>
    unfold build at hF
    obtain ⟨fs, hfs, hF⟩ := bind_eq_ok.1 hF
    obtain ⟨s, hs, hF⟩ := bind_eq_ok.1 hF
    cases hF
    unfold eval
    have hall := buildAll_ok hfs
    have : ∀ y, evalAll θ fs y = evalAll θ' fs y := by
      intro y
      apply evalAll_congr
      intro f hf
      obtain ⟨i, hi, rfl⟩ := List.getElem_of_mem hf
      rw [List.forall₂_iff_get] at hall
      have hie : i < es.length := hall.1 ▸ hi
      refine ih es[i] (List.getElem_mem _) ((directAll_iff es).1 (by unfold Direct at hd; exact hd) _ (List.getElem_mem _))
        (fun l hl => hh l (by unfold leaves; exact mem_leavesAll (List.getElem_mem hie) hl))
        (fun l hl => hk l (by unfold leaves; exact mem_leavesAll (List.getElem_mem hie) hl)) _ (hall.2 i hie hi) (fun q hq => h q ?_) y
      unfold reported
      exact mem_reportedAll hf hq
    simp only [this]

/-- The function `a` with parameter `a` given as keyword `k`, in the observable `o`: `x_o + a`. -/
def shift (o k a : String) (l : Option (ℚ × ℚ)) : Expr ℚ (ℚ × ℚ) :=
  .func ⟨[o], l.map (fun l => [(o, l)])⟩ [(k, a)] false (fun θ xs => .ok (xs.headD 0 + θ a))

/-- C150 is false for a parameter times a sum: for every sum, and every product, only the parameter it is multiplied with is
reported.  With two functions `x + a` and `y + b`, the value of `p * (f + g)` changes with `a`, but `a` is not reported. -/
theorem reported_functor_violated :
    (∀ (p : String) (es : List (Expr R I)) (F : Func R I), p ≠ "name" → build (.scale p (.sum es)) = .ok F → reported F = [p])
    ∧ ∃ F, build (.scale "p" (.sum [shift "x" "a" "a" none, shift "y" "b" "b" none])) = .ok F
      ∧ ∃ θ θ' : String → ℚ, (∀ q ∈ reported F, θ q = θ' q)
        ∧ eval θ F [("x", 0), ("y", 0)] = .ok 3 ∧ eval θ' F [("x", 0), ("y", 0)] = .ok 2 := by
  refine ⟨fun p es F hp h => ?_, ?_⟩
  · unfold build at h
    obtain ⟨g, hg, h⟩ := bind_eq_ok.1 h
    unfold build at hg
    obtain ⟨fs, hfs, hg⟩ := bind_eq_ok.1 hg
    obtain ⟨s, hs, hg⟩ := bind_eq_ok.1 hg
    cases hg
    rw [mulParam_ok h]
    simp [reported, Func.params, dictUpdate, hp]
  · refine ⟨_, rfl, fun q => if q = "a" then 2 else 1, fun _ => 1, ?_, by decide +kernel, by decide +kernel⟩
    intro q hq
    have : q = "p" := by simpa [reported, dictUpdate, Func.params] using hq
    subst this
    decide

/-- C150 is false if the name of the parameter is one of the keywords: `mu * f`, where `f` was created with `mu=Parameter("mean")`,
reports "mean" only. -/
theorem reported_clash_violated :
    ∃ F, build (.scale "mu" (shift "x" "mu" "mean" none)) = .ok F ∧ reported F = ["mean"]
      ∧ ∃ θ θ' : String → ℚ, (∀ q ∈ reported F, θ q = θ' q) ∧ eval θ F [("x", 1)] = .ok 2 ∧ eval θ' F [("x", 1)] = .ok 4 := by
  refine ⟨_, rfl, by decide +kernel, fun _ => 1, fun q => if q = "mu" then 2 else 1, ?_, by decide +kernel, by decide +kernel⟩
  intro q hq
  have : q = "mean" := by
    simpa [reported, dictUpdate, Func.params, dictSet] using hq
  subst this
  decide

/-- The hypotheses of `value_by_name` and `reported_partial` are met: `p * (x + a) + (y + b)`. -/
example : ∃ F, build (.sum [.scale "p" (shift "x" "a" "a" none), shift "y" "b" "b" none]) = .ok F
    ∧ F.space.obs = ["x", "y"] ∧ reported F = ["p", "a", "b"]
    ∧ eval (fun q => if q = "p" then 2 else 1) F [("y", 5), ("z", 0), ("x", 3)] = .ok (2 * (3 + 1) + (5 + 1))
    ∧ evalArray (fun q => if q = "p" then 2 else 1) F [3, 5] = .ok (2 * (3 + 1) + (5 + 1)) := by
  refine ⟨_, rfl, by decide +kernel, by decide +kernel, by decide +kernel, by decide +kernel⟩

example : Direct (.sum [.scale "p" (shift "x" "a" "a" none), shift "y" "b" "b" none])
    ∧ ∀ l ∈ leaves (.sum [.scale "p" (shift "x" "a" "a" none), shift "y" "b" "b" none]), Honest l.2.1 l.2.2 ∧ (l.2.1.map (·.1)).Nodup := by
  refine ⟨?_, ?_⟩
  · simp only [shift, Direct, DirectAll, true_and, and_true]
    exact ⟨⟨_, rfl, ⟨_, _, _, _, rfl⟩, by simp [Func.params]⟩, by decide⟩
  · intro l hl
    simp only [shift, leaves, leavesAll, List.append_nil, List.cons_append, List.nil_append, List.mem_cons, List.not_mem_nil, or_false] at hl
    rcases hl with rfl | rfl
    · exact ⟨fun θ θ' h => by funext xs; simp [h ("a", "a") (by simp)], by simp⟩
    · exact ⟨fun θ θ' h => by funext xs; simp [h ("b", "b") (by simp)], by simp⟩

/-! ## C151 -/

omit [DecidableEq I] in
/-- C151, the part that holds: a function of the user whose keywords are not arguments of `SimplePDF` becomes a PDF that is not
extended, reports the same parameters and has the function as its density. Missing from the full claim: the cases of
`as_pdf_functor_violated`, `as_pdf_extended_violated`. -/
theorem as_pdf_partial (s : Spc I) (ps : List (String × String)) (w : Bool) (f : (String → R) → List R → Except Err R)
    (hk : ∀ kv ∈ ps, kv.1 ∉ ["obs", "func", "name", "self", "label", "norm", "extended"]) :
    ∃ P, asPdf (.simple s ps w f) = .ok P ∧ P.extended = none ∧ P.normArg = none ∧ P.space.obs = s.obs
      ∧ P.reported = reported (.simple s ps w f) ∧ ∀ θ x, P.density θ x = eval θ (.simple s ps w f) x := by
  have hget : ∀ k, k ∈ ["obs", "func", "name", "self", "label", "norm", "extended"] → dictGet ps k = none := by
    intro k hmem
    unfold dictGet
    rw [Option.map_eq_none_iff, List.find?_eq_none]
    intro kv hkv
    simp only [decide_eq_true_eq]
    rintro rfl
    exact hk kv hkv hmem
  have hany : ps.any (fun kv => kv.1 = "obs" || kv.1 = "func" || kv.1 = "name" || kv.1 = "self") = false := by
    rw [List.any_eq_false]
    intro kv hkv
    have := hk kv hkv
    simp only [List.mem_cons, List.not_mem_nil, or_false, not_or] at this
    simp [this.1, this.2.1, this.2.2.1, this.2.2.2.1]
  have hfil : ps.filter (fun kv => kv.1 ≠ "label" && kv.1 ≠ "norm" && kv.1 ≠ "extended") = ps := by
    rw [List.filter_eq_self]
    intro kv hkv
    have := hk kv hkv
    simp only [List.mem_cons, List.not_mem_nil, or_false, not_or] at this
    simp [this.2.2.2.2.1, this.2.2.2.2.2.1, this.2.2.2.2.2.2]
  refine ⟨⟨⟨s.obs, none⟩, ps.filter (fun kv => kv.1 ≠ "label" && kv.1 ≠ "norm" && kv.1 ≠ "extended"), dictGet ps "extended", dictGet ps "norm", fun θ x => eval θ (.simple s ps w f) x⟩, ?_, hget _ (by simp), hget _ (by simp), rfl, ?_, fun _ _ => rfl⟩
  · unfold asPdf
    exact if_neg (by rw [show (Func.simple s ps w f).params = ps from rfl, hany]; simp)
  unfold PdfObj.reported reported
  rw [hfil, hget _ (by simp)]
  simp

example : ∀ kv ∈ [("mu", "mean")], kv.1 ∉ ["obs", "func", "name", "self", "label", "norm", "extended"] := by decide

omit [DecidableEq I] in
/-- C151 is false for sums and products of functions: the PDF reports no parameters at all, so nothing can be fitted. -/
theorem as_pdf_functor_violated (s : Spc I) (fs : List (Func R I)) :
    (∃ P, asPdf (.sum s fs) = .ok P ∧ P.reported = [] ∧ ∀ θ x, P.density θ x = eval θ (.sum s fs) x)
    ∧ ∃ P, asPdf (.prod s fs) = .ok P ∧ P.reported = [] := by
  refine ⟨⟨_, rfl, rfl, fun _ _ => rfl⟩, ⟨_, rfl, rfl⟩⟩

omit [DecidableEq I] in
/-- C151 is false for a function with a parameter for the keyword "extended" (the same holds for "norm" and "label"): the PDF is
extended with this parameter as its yield. -/
theorem as_pdf_extended_violated (s : Spc I) (q : String) (w : Bool) (f : (String → R) → List R → Except Err R) :
    ∃ P, asPdf (.simple s [("extended", q)] w f) = .ok P ∧ P.extended = some q ∧ P.params = [] := by
  refine ⟨_, rfl, by simp [dictGet, Func.params], by simp [Func.params]⟩

/-! ## C152 -/

mutual
/-- No parameter is multiplied. -/
def NoScale : Expr R I → Prop
  | .func _ _ _ _ => True
  | .scale _ _ => False
  | .sum es => NoScaleAll es
  | .prod es => NoScaleAll es
/-- In none of them. -/
def NoScaleAll : List (Expr R I) → Prop
  | [] => True
  | e :: es => NoScale e ∧ NoScaleAll es
end

mutual
/-- No sum or product is empty, and every function has an observable. -/
def NonEmpty : Expr R I → Prop
  | .func s _ _ _ => s.obs ≠ []
  | .scale _ e => NonEmpty e
  | .sum es => es ≠ [] ∧ NonEmptyAll es
  | .prod es => es ≠ [] ∧ NonEmptyAll es
/-- All of them. -/
def NonEmptyAll : List (Expr R I) → Prop
  | [] => True
  | e :: es => NonEmpty e ∧ NonEmptyAll es
end

omit [Add R] [Zero R] [Mul R] [One R] [DecidableEq I] in
theorem noScaleAll_iff (es : List (Expr R I)) : NoScaleAll es ↔ ∀ e ∈ es, NoScale e := by
  induction es with
  | nil => simp [NoScaleAll]
  | cons e es ih => simp [NoScaleAll, ih]

omit [Add R] [Zero R] [Mul R] [One R] [DecidableEq I] in
theorem nonEmptyAll_iff (es : List (Expr R I)) : NonEmptyAll es ↔ ∀ e ∈ es, NonEmpty e := by
  induction es with
  | nil => simp [NonEmptyAll]
  | cons e es ih => simp [NonEmptyAll, ih]

theorem dictGet_mem {l : List (String × I)} {o : String} {a : I} (h : dictGet l o = some a) : (o, a) ∈ l := by
  unfold dictGet at h
  obtain ⟨kv, hkv, rfl⟩ := Option.map_eq_some_iff.1 h
  have h1 := List.find?_some hkv
  simp only [decide_eq_true_eq] at h1
  subst h1
  exact List.mem_of_find?_eq_some hkv

theorem dictGet_of_forall {l : List (String × I)} {o : String} (L : String → I) (h : ∀ kv ∈ l, kv.2 = L kv.1)
    (hm : ∃ kv ∈ l, kv.1 = o) : dictGet l o = some (L o) := by
  unfold dictGet
  obtain ⟨kv, hkv, rfl⟩ := hm
  rcases hf : l.find? (fun p => p.1 = kv.1) with _ | b
  · rw [List.find?_eq_none] at hf
    exact absurd (by simp) (hf kv hkv)
  · have h1 := List.find?_some hf
    simp only [decide_eq_true_eq] at h1
    rw [hf, Option.map_some, h b (List.mem_of_find?_eq_some hf), h1]

theorem combine_limits (L : String → I) (ss : List (Spc I)) (hne : ss ≠ []) (hobs : ∀ s ∈ ss, s.obs ≠ [])
    (h : ∀ s ∈ ss, HasLimits L s) :
    ∃ s, combine ss = .ok s ∧ HasLimits L s ∧ s.obs ≠ [] ∧ ∀ o, o ∈ s.obs ↔ ∃ t ∈ ss, o ∈ t.obs := by
  have hmem : ∀ o, o ∈ Functor.commonObs (ss.map (·.obs)) ↔ ∃ t ∈ ss, o ∈ t.obs := by
    intro o
    rw [mem_commonObs]
    simp
  obtain ⟨s0, hs0⟩ := List.exists_mem_of_ne_nil ss hne
  obtain ⟨o0, ho0⟩ := List.exists_mem_of_ne_nil _ (hobs s0 hs0)
  have hno : Functor.commonObs (ss.map (·.obs)) ≠ [] := List.ne_nil_of_mem ((hmem o0).2 ⟨s0, hs0, ho0⟩)
  have h1 : ss.all (·.lims.isNone) = false := by
    rw [List.all_eq_false]
    obtain ⟨l, hl, _⟩ := h s0 hs0
    exact ⟨s0, hs0, by simp [hl]⟩
  have h2 : ss.all (·.lims.isSome) = true := by
    rw [List.all_eq_true]
    intro s hs
    obtain ⟨l, hl, _⟩ := h s hs
    simp [hl]
  have h3 : consistent ss = true := by
    unfold consistent
    rw [List.all_eq_true]
    intro s hs
    rw [List.all_eq_true]
    intro t ht
    rw [List.all_eq_true]
    intro o _
    obtain ⟨l, hl, _, hl2⟩ := h s hs
    obtain ⟨m, hm, _, hm2⟩ := h t ht
    rw [hl, hm, Option.getD_some, Option.getD_some]
    rcases h4 : dictGet l o with _ | a
    · rfl
    · rcases h5 : dictGet m o with _ | b
      · rfl
      · have e1 := (hl2 _ (dictGet_mem h4)).2
        have e2 := (hm2 _ (dictGet_mem h5)).2
        simp only at e1 e2
        simp [e1, e2]
  have hall : ∀ kv ∈ ss.flatMap (fun s => s.lims.getD []), kv.2 = L kv.1 := by
    intro kv hkv
    obtain ⟨s, hs, hkv⟩ := List.mem_flatMap.1 hkv
    obtain ⟨l, hl, _, hl2⟩ := h s hs
    rw [hl, Option.getD_some] at hkv
    exact (hl2 kv hkv).2
  have hget : ∀ o ∈ Functor.commonObs (ss.map (·.obs)), dictGet (ss.flatMap (fun s => s.lims.getD [])) o = some (L o) := by
    intro o ho
    obtain ⟨t, ht, hot⟩ := (hmem o).1 ho
    refine dictGet_of_forall L hall ?_
    obtain ⟨l, hl, hl1, _⟩ := h t ht
    exact ⟨(o, L o), List.mem_flatMap.2 ⟨t, ht, by rw [hl, Option.getD_some]; exact dictGet_mem (hl1 o hot)⟩, rfl⟩
  refine ⟨⟨Functor.commonObs (ss.map (·.obs)), some ((Functor.commonObs (ss.map (·.obs))).filterMap
    (fun o => (dictGet (ss.flatMap (fun s => s.lims.getD [])) o).map (fun l => (o, l))))⟩, ?_, ⟨_, rfl, ?_, ?_⟩, hno, hmem⟩
  · unfold combine
    dsimp only
    rw [if_neg (by simpa using hno), h1, h2, h3]
    simp
  · intro o ho
    refine dictGet_of_forall L ?_ ⟨(o, L o), List.mem_filterMap.2 ⟨o, ho, by rw [hget o ho]; rfl⟩, rfl⟩
    intro kv hkv
    obtain ⟨o', ho', he⟩ := List.mem_filterMap.1 hkv
    rw [hget o' ho'] at he
    cases he
    rfl
  · intro kv hkv
    obtain ⟨o', ho', he⟩ := List.mem_filterMap.1 hkv
    rw [hget o' ho'] at he
    cases he
    exact ⟨ho', rfl⟩

/-- C152, the part that holds: sums and products of functions with limits that agree can be made, to any depth, and have these
limits. Missing from the full claim: the cases of `limits_scale_violated`, `limits_sum_violated`. -/
theorem limits_partial (L : String → I) (e : Expr R I) (hs : NoScale e) (hn : NonEmpty e) (hl : ∀ l ∈ leaves e, HasLimits L l.1) :
    ∃ F, build e = .ok F ∧ HasLimits L F.space ∧ F.space.obs ≠ [] := by
  have many : ∀ es : List (Expr R I), (∀ e ∈ es, NoScale e → NonEmpty e → (∀ l ∈ leaves e, HasLimits L l.1) →
        ∃ F, build e = .ok F ∧ HasLimits L F.space ∧ F.space.obs ≠ []) → NoScaleAll es → NonEmptyAll es →
      (∀ l ∈ leavesAll es, HasLimits L l.1) →
      ∃ fs, buildAll es = .ok fs ∧ fs.length = es.length ∧ ∀ f ∈ fs, HasLimits L f.space ∧ f.space.obs ≠ [] := by
    intro es ih h1 h2 h3
    induction es with
    | nil => exact ⟨[], rfl, rfl, by simp⟩
    | cons e es ih2 =>
      obtain ⟨f, hf, hf2⟩ := ih e List.mem_cons_self ((noScaleAll_iff _).1 h1 e List.mem_cons_self)
        ((nonEmptyAll_iff _).1 h2 e List.mem_cons_self) (fun l hl => h3 l (mem_leavesAll List.mem_cons_self hl))
      obtain ⟨fs, hfs, hlen, hfs2⟩ := ih2 (fun e' h' => ih e' (List.mem_cons_of_mem _ h')) (by unfold NoScaleAll at h1; exact h1.2)
        (by unfold NonEmptyAll at h2; exact h2.2) (fun l hl => h3 l (by unfold leavesAll; exact List.mem_append_right _ hl))
      refine ⟨f :: fs, ?_, by simp [hlen], fun g hg => ?_⟩
      · unfold buildAll
        rw [hf, except_bind_ok, hfs]
        rfl
      · rcases List.mem_cons.1 hg with rfl | hg
        · exact hf2
        · exact hfs2 g hg
  induction e using Expr.ind with
  | hf s ps w f =>
    unfold NonEmpty at hn
    exact ⟨_, rfl, hl (s, ps, f) (by simp [leaves]), hn⟩
  | hs p e ih => exact absurd hs (by simp [NoScale])
  | hsum es ih =>
    unfold NoScale at hs
    unfold NonEmpty at hn
    unfold leaves at hl
    obtain ⟨fs, hfs, hlen, h2⟩ := many es (fun e he a b c => ih e he a b c) hs hn.2 hl
    obtain ⟨s, hc, hL, hne, _⟩ := combine_limits L (fs.map (·.space))
      (by
        intro h0
        rw [List.map_eq_nil_iff] at h0
        subst h0
        exact hn.1 (List.length_eq_zero_iff.1 hlen.symm))
      (by simpa using fun f hf => (h2 f hf).2) (by simpa using fun f hf => (h2 f hf).1)
    refine ⟨.sum s fs, ?_, hL, hne⟩
    unfold build
    rw [hfs, except_bind_ok, hc]
    rfl
  | hprod es ih =>
    unfold NoScale at hs
    unfold NonEmpty at hn
    unfold leaves at hl
    obtain ⟨fs, hfs, hlen, h2⟩ := many es (fun e he a b c => ih e he a b c) hs hn.2 hl
    obtain ⟨s, hc, hL, hne, _⟩ := combine_limits L (fs.map (·.space))
      (by
        intro h0
        rw [List.map_eq_nil_iff] at h0
        subst h0
        exact hn.1 (List.length_eq_zero_iff.1 hlen.symm))
      (by simpa using fun f hf => (h2 f hf).2) (by simpa using fun f hf => (h2 f hf).1)
    refine ⟨.prod s fs, ?_, hL, hne⟩
    unfold build
    rw [hfs, except_bind_ok, hc]
    rfl

/-- The hypotheses of `limits_partial` are met. -/
example : ∃ F, build (.sum [shift "x" "a" "a" (some (0, 1)), .prod [shift "y" "b" "b" (some (2, 3)), shift "x" "c" "c" (some (0, 1))]])
      = .ok F ∧ HasLimits (fun o => if o = "x" then (0, 1) else (2, 3)) F.space ∧ F.space.obs ≠ [] := by
  refine limits_partial _ _ (by simp [NoScale, NoScaleAll, shift]) (by simp [NonEmpty, NonEmptyAll, shift]) ?_
  intro l hl
  simp only [shift, leaves, leavesAll, List.append_nil, List.cons_append, List.nil_append, List.mem_cons, List.not_mem_nil, or_false] at hl
  rcases hl with rfl | rfl | rfl <;> exact ⟨_, rfl, by decide +kernel, by decide +kernel⟩

omit [DecidableEq I] in
/-- C152 is false for a parameter times a function, and for `as_pdf`: for every function, the limits are lost. -/
theorem limits_scale_violated (p : String) (f F : Func R I) (P : PdfObj R I) (h : mulParam p f = .ok F) (h' : asPdf f = .ok P) :
    F.space.lims = none ∧ P.space.lims = none := by
  refine ⟨by rw [mulParam_ok h]; rfl, ?_⟩
  unfold asPdf at h'
  split at h'
  · cases h'
  · cases h'; rfl

/-- C152 is false for sums with a part that is multiplied with a parameter: `f + p * g` raises `LimitsNotSpecifiedError` for all
functions `f` with limits. -/
theorem limits_sum_violated (p : String) (L : String → I) (f g : Func R I) (hf : HasLimits L f.space) (hne : f.space.obs ≠ [])
    (G : Func R I) (hG : mulParam p g = .ok G) : combine ([f, G].map (·.space)) = .error .limitsNotSpecified := by
  obtain ⟨l, hl, _⟩ := hf
  have hg : G.space.lims = none := by rw [mulParam_ok hG]; rfl
  obtain ⟨o, ho⟩ := List.exists_mem_of_ne_nil _ hne
  have : Functor.commonObs ([f, G].map (·.space) |>.map (·.obs)) ≠ [] := by
    refine List.ne_nil_of_mem (a := o) ((mem_commonObs _ _).2 ⟨f.space.obs, by simp, ho⟩)
  unfold combine
  dsimp only
  rw [if_neg (by simpa using this)]
  simp [hl, hg]

example : build (.sum [shift "x" "a" "a" (some (0, 1)), .scale "p" (shift "x" "b" "b" (some (0, 1)))])
    = .error .limitsNotSpecified := by rfl

/-! ## C154 -/

/-- C154 is false: `copy` of a `SimpleFunc` always raises `TypeError`, and if the function has another parameter for the keyword, the
original has the new parameter from then on. -/
theorem copy_violated (st : FuncState) (k q q' : String) (h : dictGet st.params k = some q) (hq : q' ≠ q) :
    (copy st [(k, q')]).1 = .error .typeError ∧ dictGet (copy st [(k, q')]).2.params k = some q' ∧ (copy st [(k, q')]).2 ≠ st := by
  have h1 : dictGet (copy st [(k, q')]).2.params k = some q' := by
    show dictGet (dictSet st.params k q') k = _
    exact dictGet_set_self _ _ _
  refine ⟨rfl, h1, fun he => ?_⟩
  rw [he, h] at h1
  exact hq (Option.some.inj h1).symm

/-- C154, what is left: without new parameters the original is not changed. Missing from the full claim: the cases of `copy_violated`. -/
theorem copy_partial (st : FuncState) : (copy st []).2 = st := rfl

example : dictGet (FuncState.mk [("mu", "mean")]).params "mu" = some "mean" := rfl

end Zfit.Fun
