import Verif.Own.CallModel
import Verif.Common.Except
import Mathlib.Tactic.Common

/-!
# C193-C195: what reaches a method that is decorated with `supports`
-/

namespace Zfit.Own

open Zfit

variable {R : Type}

/-! ## What is meant -/

/-- A body that does not itself raise a `TypeError` about an unexpected keyword argument. -/
def Plain (m : Method R) : Prop := ∀ env kw, m.body env ≠ .error (.unexpected kw)

/-- The norm `v` is given once, by keyword or by position, to a method with a parameter `norm`. -/
def GivesNorm (s : Sig) (c : Call) (v : Val) : Prop :=
  (dictGet c.kwargs "norm" = some v ∧ c.args.length ≤ s.names.idxOf "norm") ∨
    ("norm" ∉ c.keys ∧ c.args[s.names.idxOf "norm"]? = some v)

/-- Whether a norm is covered by what was declared: no norm always is, a range if all are supported, or if it is the space or norm of
the PDF and this is supported. -/
def covers (supp : Support) (o : Owner) : Val → Bool
  | .none => true
  | .false => true
  | .space s => s.noLimits || (match supp with
    | .all => true
    | .some space norm => (space && decide (o.space = s)) || (norm && decide (o.norm = s)))
  | _ => decide (supp = .all)

/-- What the method gets for a norm that is covered: a space without limits is `False` for it unless it supports such a space. -/
def seen (supp : Support) (o : Owner) : Val → Val
  | .space s =>
    match supp with
    | .all => .space s
    | .some space norm => if (space && decide (o.space = s)) || (norm && decide (o.norm = s)) then .space s else .false
  | v => v

/-- The call with another norm in the same place. -/
def withNorm (s : Sig) (c : Call) (v : Val) : Call :=
  if "norm" ∈ c.keys then { c with kwargs := dictSet c.kwargs "norm" v } else { c with args := c.args.set (s.names.idxOf "norm") v }

/-- The call with the values of the parameters if the method has an argument `params` for them, and without if not. -/
def forParams (s : Sig) (values : Val) (c : Call) : Call :=
  if "params" ∈ s.names then (if "params" ∈ c.keys then c else { c with kwargs := c.kwargs ++ [("params", values)] })
  else { c with kwargs := dropKey c.kwargs "params" }

/-- The limits are given, by position or keyword, with a number of pieces. -/
def GivesLimits (s : Sig) (c : Call) (n : ℕ) : Prop :=
  (s.names.idxOf "limits" < c.args.length ∧ c.args[s.names.idxOf "limits"]? = some (.limits n)) ∨
    (c.args.length ≤ s.names.idxOf "limits" ∧ dictGet c.kwargs "limits" = some (.limits n))

/-! ## Binding -/

theorem findSome_fault_ne (s : Sig) (n : ℕ) (l : List (String × Val)) (k : String) (e : Exn)
    (h : l.findSome? (fault s n) = some e) (hk : k ∉ s.names) (he : e ≠ .unexpected k) :
    (dropKey l k).findSome? (fault s n) = some e := by
  induction l with
  | nil => simp at h
  | cons kv l ih =>
    rw [List.findSome?_cons] at h
    unfold dropKey at ih ⊢
    cases hf : fault s n kv with
    | some e' =>
      rw [hf] at h
      simp only [Option.some.injEq] at h
      subst h
      have hne : kv.1 ≠ k := by
        rintro rfl
        unfold fault at hf
        rw [if_pos hk] at hf
        exact he (Option.some.inj hf).symm
      rw [List.filter_cons_of_pos (by simpa using hne), List.findSome?_cons, hf]
    | none =>
      rw [hf] at h
      simp only at h
      by_cases hne : kv.1 = k
      · rw [List.filter_cons_of_neg (by simpa using hne)]
        exact ih h
      · rw [List.filter_cons_of_pos (by simpa using hne), List.findSome?_cons, hf]
        exact ih h

theorem fault_unexpected {s : Sig} {n : ℕ} {l : List (String × Val)} {k : String}
    (h : l.findSome? (fault s n) = some (.unexpected k)) : k ∉ s.names ∧ k ∈ l.map (·.1) := by
  obtain ⟨kv, hkv, hf⟩ := List.exists_of_findSome?_eq_some h
  unfold fault at hf
  split at hf
  · rename_i hn
    cases Option.some.inj hf
    exact ⟨hn, List.mem_map_of_mem hkv⟩
  · split at hf <;> cases hf

theorem bindPar_ne_unexpected (g : Env) (p : Par) (k : String) : bindPar g p ≠ .error (.unexpected k) := by
  unfold bindPar
  split
  · simp
  · split <;> simp

theorem mapM_ne_unexpected (g : Env) (l : List Par) (k : String) : l.mapM (bindPar g) ≠ .error (.unexpected k) := by
  induction l with
  | nil => simp [pure, Except.pure]
  | cons p l ih =>
    rw [List.mapM_cons]
    cases hp : bindPar g p with
    | error e =>
      intro h
      change Except.error e = _ at h
      cases h
      exact bindPar_ne_unexpected g p k hp
    | ok a =>
      cases hl : l.mapM (bindPar g) with
      | error e =>
        intro h
        change Except.error e = _ at h
        cases h
        exact ih hl
      | ok as =>
        intro h
        change Except.ok (a :: as) = _ at h
        cases h

theorem bind_unexpected {s : Sig} {c : Call} {k : String} (h : bind s c = .error (.unexpected k)) :
    c.kwargs.findSome? (fault s c.args.length) = some (.unexpected k) := by
  unfold bind at h
  split at h
  · rename_i e he
    cases h
    exact he
  · split at h
    · cases h
    · exact absurd h (mapM_ne_unexpected _ _ _)

theorem run_unexpected {m : Method R} (hm : Plain m) {c : Call} {k : String} {log : List Env}
    (h : m.run c = (log, .error (.unexpected k))) :
    log = [] ∧ c.kwargs.findSome? (fault m.sig c.args.length) = some (.unexpected k) := by
  unfold Method.run at h
  split at h
  · rename_i e he
    obtain ⟨rfl, h2⟩ := Prod.mk.inj h
    cases h2
    exact ⟨rfl, bind_unexpected he⟩
  · rename_i env he
    obtain ⟨rfl, h2⟩ := Prod.mk.inj h
    exact absurd h2 (hm env k)

theorem run_error_fault (m : Method R) (c : Call) (e : Exn) (h : c.kwargs.findSome? (fault m.sig c.args.length) = some e) :
    m.run c = ([], .error e) := by
  unfold Method.run bind
  rw [h]

theorem findSome_congr {α β : Type} {f g : α → Option β} (l : List α) (h : ∀ a ∈ l, f a = g a) : l.findSome? f = l.findSome? g := by
  induction l with
  | nil => rfl
  | cons a l ih =>
    rw [List.findSome?_cons, List.findSome?_cons, h a (by simp), ih fun b hb => h b (by simp [hb])]

theorem dictGet_cons (kv : String × Val) (l : List (String × Val)) (k : String) :
    dictGet (kv :: l) k = if kv.1 = k then some kv.2 else dictGet l k := by
  unfold dictGet
  rw [List.find?_cons]
  by_cases h : kv.1 = k <;> simp [h]

theorem dictGet_append (a b : List (String × Val)) (k : String) : dictGet (a ++ b) k = (dictGet a k).or (dictGet b k) := by
  induction a with
  | nil => simp [dictGet]
  | cons kv a ih =>
    rw [List.cons_append, dictGet_cons, dictGet_cons, ih]
    split <;> simp

theorem dictGet_dropKey (a : List (String × Val)) (k k' : String) (h : k' ≠ k) : dictGet (dropKey a k) k' = dictGet a k' := by
  induction a with
  | nil => rfl
  | cons kv a ih =>
    unfold dropKey at ih ⊢
    rw [List.filter_cons]
    by_cases hk : kv.1 = k
    · rw [if_neg (by simpa using hk), ih, dictGet_cons, if_neg (by rw [hk]; exact h.symm)]
    · rw [if_pos (by simpa using hk), dictGet_cons, ih, dictGet_cons]

theorem dictGet_none_of_not_mem (a : List (String × Val)) (k : String) (h : k ∉ a.map (·.1)) : dictGet a k = none := by
  induction a with
  | nil => rfl
  | cons kv a ih =>
    rw [dictGet_cons, if_neg (by rintro rfl; simp at h)]
    exact ih (by simp at h ⊢; exact h.2)

theorem mem_keys {c : Call} {k : String} {v : Val} (h : dictGet c.kwargs k = some v) : k ∈ c.keys := by
  by_contra hc
  rw [dictGet_none_of_not_mem c.kwargs k hc] at h
  cases h

theorem mem_of_dictGet (a : List (String × Val)) (k : String) (v : Val) (h : dictGet a k = some v) : k ∈ a.map (·.1) := by
  by_contra hc
  rw [dictGet_none_of_not_mem a k hc] at h
  cases h

theorem bindPar_drop (s : Sig) (c : Call) (k : String) (hk : k ∉ s.names) (p : Par) (hp : p ∈ s.pos ++ s.kws) :
    bindPar (given s { c with kwargs := dropKey c.kwargs k }) p = bindPar (given s c) p := by
  unfold bindPar given
  dsimp only
  rw [dictGet_append, dictGet_append, dictGet_dropKey _ _ _ (by
    rintro rfl
    exact hk (List.mem_map_of_mem hp))]

theorem mapM_congr' {α β : Type} {f g : α → Except Exn β} (l : List α) (h : ∀ a ∈ l, f a = g a) : l.mapM f = l.mapM g := by
  induction l with
  | nil => rfl
  | cons a l ih => rw [List.mapM_cons, List.mapM_cons, h a (by simp), ih fun b hb => h b (by simp [hb])]

theorem findSome_drop_none (s : Sig) (n : ℕ) (l : List (String × Val)) (k : String) (h : l.findSome? (fault s n) = none) :
    (dropKey l k).findSome? (fault s n) = none := by
  rw [List.findSome?_eq_none_iff] at h ⊢
  intro x hx
  exact h x (List.mem_filter.1 hx).1

/-- Without a keyword argument that the method does not have, the call is the same unless it was this that was wrong. -/
theorem run_drop {m : Method R} {c : Call} {k : String} (hk : k ∉ m.sig.names)
    (hf : c.kwargs.findSome? (fault m.sig c.args.length) ≠ some (.unexpected k)) :
    m.run { c with kwargs := dropKey c.kwargs k } = m.run c := by
  cases h : c.kwargs.findSome? (fault m.sig c.args.length) with
  | some e =>
    rw [run_error_fault m c e h, run_error_fault m _ e (findSome_fault_ne _ _ _ _ _ h hk (by rintro rfl; exact hf h))]
  | none =>
    unfold Method.run bind
    dsimp only
    rw [findSome_drop_none _ _ _ _ h, h]
    dsimp only
    rw [mapM_congr' _ fun p hp => bindPar_drop m.sig c k hk p hp]

/-- The decorator that handles `params`, for a plain body. -/
theorem withParams_eq {m : Method R} (hm : Plain m) (values : Val) (c : Call) :
    withParams values m.run c = m.run (forParams m.sig values c) := by
  unfold withParams forParams
  dsimp only
  generalize hc' : (if "params" ∈ c.keys then c else { c with kwargs := c.kwargs ++ [("params", values)] }) = c'
  by_cases hp : "params" ∈ m.sig.names
  · rw [if_pos hp]
    generalize hr : m.run c' = r
    obtain ⟨log, out⟩ := r
    split
    · rename_i log' heq
      obtain ⟨rfl, rfl⟩ := Prod.mk.inj heq
      exact absurd hp (fault_unexpected (run_unexpected hm hr).2).1
    · rfl
  · rw [if_neg hp]
    have hin : "params" ∈ c'.keys := by
      rw [← hc']
      split
      · assumption
      · simp [Call.keys]
    have hdrop : ({ c' with kwargs := dropKey c'.kwargs "params" } : Call) = { c with kwargs := dropKey c.kwargs "params" } := by
      rw [← hc']
      split
      · rfl
      · simp [dropKey]
    generalize hr : m.run c' = r
    obtain ⟨log, out⟩ := r
    split
    · rename_i log' heq
      obtain ⟨rfl, rfl⟩ := Prod.mk.inj heq
      obtain ⟨rfl, -⟩ := run_unexpected hm hr
      unfold again
      rw [if_pos hin]
      dsimp only
      rw [hdrop]
      simp
    · rename_i hne
      rw [← hr, ← hdrop]
      refine (run_drop hp ?_).symm
      intro hf
      rw [run_error_fault m c' _ hf] at hr
      exact hne [] hr.symm

/-! ## The norm -/

theorem index?_some {s : Sig} {k : String} (h : k ∈ s.names) : s.index? k = some (s.names.idxOf k) := if_pos h

theorem index?_none {s : Sig} {k : String} (h : k ∉ s.names) : s.index? k = none := if_neg h

theorem normGiven_eq {s : Sig} {c : Call} {v : Val} (hn : "norm" ∈ s.names) (hr : "norm_range" ∉ s.names)
    (hk : "norm_range" ∉ c.keys) (hg : GivesNorm s c v) :
    (normGiven s c).1 = v ∧ ((normGiven s c).2 = true → "norm" ∉ c.keys) ∧
      ((normGiven s c).2 = false → v ≠ .none → "norm" ∈ c.keys) := by
  have h1 : kwGet c "norm_range" = .none := by
    unfold kwGet
    rw [dictGet_none_of_not_mem _ _ hk]
    rfl
  unfold normGiven
  rw [if_neg (by simp [h1]), index?_none hr, index?_some hn]
  dsimp only
  rcases hg with ⟨hv, hlen⟩ | ⟨hnk, hv⟩
  · have h2 : kwGet c "norm" = v := by unfold kwGet; rw [hv]; rfl
    have hmem := mem_keys hv
    have hlt : ¬ s.names.idxOf "norm" < c.args.length := by omega
    rw [h2]
    by_cases hvn : v = .none
    · subst hvn
      simp [hlt]
    · simp [hvn, hmem]
  · have h2 : kwGet c "norm" = .none := by unfold kwGet; rw [dictGet_none_of_not_mem _ _ hnk]; rfl
    have hlt := (List.getElem?_eq_some_iff.1 hv).1
    rw [h2, if_neg (by simp), if_pos hlt, hv]
    simp [hnk]

theorem falsify_absent (d : List (String × Val)) (k : String) (h : k ∉ d.map (·.1)) : falsify d k = d := if_neg h

theorem withNorm_keys (s : Sig) (c : Call) (v : Val) (k : String) : k ∈ (withNorm s c v).keys ↔ k ∈ c.keys := by
  have keys_set : ∀ (d : List (String × Val)) (w : Val), "norm" ∈ d.map (·.1) → (dictSet d "norm" w).map (·.1) = d.map (·.1) := by
    intro d w
    induction d with
    | nil => simp
    | cons kv d ih =>
      intro h
      unfold dictSet
      split
      · rename_i hk
        simp
      · rename_i hk
        have : "norm" ∈ d.map (·.1) := by
          rw [List.map_cons, List.mem_cons] at h
          exact h.resolve_left fun h => hk h.symm
        simp [ih this]
  unfold withNorm Call.keys
  split
  · rename_i h
    dsimp only
    rw [keys_set _ _ h]
  · rfl

theorem dictSet_same (d : List (String × Val)) (k : String) (v : Val) (h : dictGet d k = some v) : dictSet d k v = d := by
  induction d with
  | nil => cases h
  | cons kv d ih =>
    obtain ⟨k', v'⟩ := kv
    rw [dictGet_cons] at h
    unfold dictSet
    dsimp only at h
    by_cases hk : k' = k
    · rw [if_pos hk] at h ⊢
      cases h
      rfl
    · rw [if_neg hk] at h ⊢
      rw [ih h]

theorem withNorm_same {s : Sig} {c : Call} {v : Val} (hg : GivesNorm s c v) : withNorm s c v = c := by
  unfold withNorm
  rcases hg with ⟨hv, -⟩ | ⟨hnk, hv⟩
  · rw [if_pos (mem_keys hv), dictSet_same _ _ _ hv]
  · rw [if_neg hnk]
    obtain ⟨hlt, hget⟩ := List.getElem?_eq_some_iff.1 hv
    rw [← hget, List.set_getElem_self hlt]

theorem replaceNorm_eq {s : Sig} {c : Call} {sp : Sp} (hn : "norm" ∈ s.names) (hr : "norm_range" ∉ s.names)
    (hk : "norm_range" ∉ c.keys) (hg : GivesNorm s c (.space sp)) :
    replaceNorm s c (normGiven s c).2 = .ok (withNorm s c .false) := by
  obtain ⟨-, h2, h3⟩ := normGiven_eq hn hr hk hg
  unfold replaceNorm withNorm
  cases hb : (normGiven s c).2 with
  | true =>
    rw [if_neg (by simp), if_neg (h2 hb), index?_none hr, index?_some hn]
  | false =>
    have := h3 hb (by simp)
    rw [if_pos (by simp), if_pos this, falsify_absent _ _ hk]
    unfold falsify
    unfold Call.keys at this
    rw [if_pos this]

theorem retryNorm_eq {m : Method R} (hm : Plain m) (hn : "norm" ∈ m.sig.names) (values : Val) (c : Call)
    (hk : "norm_range" ∉ c.keys) : retryNorm (withParams values m.run) c = m.run (forParams m.sig values c) := by
  unfold retryNorm
  rw [withParams_eq hm]
  generalize hr : m.run (forParams m.sig values c) = r
  obtain ⟨log, out⟩ := r
  split
  · rename_i log' heq
    obtain ⟨rfl, rfl⟩ := Prod.mk.inj heq
    have hmem := (fault_unexpected (run_unexpected hm hr).2).2
    exfalso
    unfold forParams at hmem
    unfold Call.keys at hk
    split at hmem
    · split at hmem
      · exact hk hmem
      · rw [List.map_append, List.mem_append] at hmem
        rcases hmem with h | h
        · exact hk h
        · simp at h
    · refine hk ?_
      obtain ⟨kv, h1, h2⟩ := List.mem_map.1 hmem
      exact List.mem_map.2 ⟨kv, (List.mem_filter.1 h1).1, h2⟩
  · rename_i log' heq
    obtain ⟨rfl, rfl⟩ := Prod.mk.inj heq
    exact absurd hn (fault_unexpected (run_unexpected hm hr).2).1
  · rfl

/-- What a decorated method with a parameter `norm` does, apart from the limits. -/
theorem checkNorm_eq {m : Method R} (hm : Plain m) (hn : "norm" ∈ m.sig.names) (hr : "norm_range" ∉ m.sig.names)
    (supp : Support) (o : Owner) (values : Val) (c : Call) (hk : "norm_range" ∉ c.keys) (v : Val) (hg : GivesNorm m.sig c v) :
    checkNorm supp o m.sig (withParams values m.run) c =
      if covers supp o v then m.run (forParams m.sig values (withNorm m.sig c (seen supp o v)))
      else ([], .error (.raised .normNotImplemented)) := by
  have hk' : "norm_range" ∉ (withNorm m.sig c .false).keys := by rw [withNorm_keys]; exact hk
  obtain ⟨hv, -, -⟩ := normGiven_eq hn hr hk hg
  have hrep : ∀ sp, v = .space sp → replaceNorm m.sig c (normGiven m.sig c).2 = .ok (withNorm m.sig c .false) := by
    rintro sp rfl
    exact replaceNorm_eq hn hr hk hg
  unfold checkNorm
  dsimp only
  rw [hv]
  cases v with
  | none => simp [covers, seen, retryNorm_eq hm hn values c hk, withNorm_same hg]
  | false => simp [covers, seen, retryNorm_eq hm hn values c hk, withNorm_same hg]
  | limits n =>
    by_cases h : supp = .all <;> simp [covers, seen, h, retryNorm_eq hm hn values c hk, withNorm_same hg]
  | thing n =>
    by_cases h : supp = .all <;> simp [covers, seen, h, retryNorm_eq hm hn values c hk, withNorm_same hg]
  | space sp =>
    dsimp only
    rw [hrep sp rfl]
    cases supp with
    | all => simp [covers, seen, retryNorm_eq hm hn values c hk, withNorm_same hg]
    | some a b =>
      dsimp only [covers, seen]
      by_cases hx : o.space = sp <;> by_cases hy : o.norm = sp <;> by_cases hsp : sp.noLimits = true <;> cases a <;> cases b <;>
        simp [hx, hy, hsp, retryNorm_eq hm hn values c hk, retryNorm_eq hm hn values _ hk', withNorm_same hg]

/-! ## What the body gets -/

theorem dictGet_env {l : List Par} {g : Env} {env : Env} (h : l.mapM (bindPar g) = .ok env) (k : String) (v : Val)
    (hk : k ∈ l.map (·.name)) (hg : dictGet g k = some v) : dictGet env k = some v := by
  induction l generalizing env with
  | nil => simp at hk
  | cons p l ih =>
    rw [List.mapM_cons] at h
    obtain ⟨a, ha, h⟩ := bind_eq_ok.1 h
    obtain ⟨as, has, h⟩ := bind_eq_ok.1 h
    rw [except_pure] at h
    cases h
    have hname : a.1 = p.name := by
      unfold bindPar at ha
      split at ha
      · cases ha; rfl
      · split at ha
        · cases ha; rfl
        · cases ha
    rw [dictGet_cons, hname]
    by_cases hp : p.name = k
    · rw [if_pos hp]
      unfold bindPar at ha
      rw [hp, hg] at ha
      cases ha
      rfl
    · rw [if_neg hp]
      refine ih has ?_
      rw [List.map_cons, List.mem_cons] at hk
      exact hk.resolve_left fun h => hp h.symm

/-- A parameter of the method has the value that is given for it. -/
theorem run_env {m : Method R} {c : Call} {k : String} {v : Val} (hk : k ∈ m.sig.names) (hg : dictGet (given m.sig c) k = some v) :
    ∀ env ∈ (m.run c).1, dictGet env k = some v := by
  intro env henv
  unfold Method.run at henv
  split at henv
  · simp at henv
  · rename_i env' hb
    simp only [List.mem_singleton] at henv
    subst henv
    unfold bind at hb
    split at hb
    · cases hb
    · split at hb
      · cases hb
      · exact dictGet_env hb k v hk hg

theorem dictGet_zip_none (l : List String) (a : List Val) (k : String) (h : a.length ≤ l.idxOf k) : dictGet (l.zip a) k = none := by
  induction l generalizing a with
  | nil => rfl
  | cons x l ih =>
    cases a with
    | nil => rfl
    | cons y a =>
      rw [List.zip_cons_cons, dictGet_cons]
      by_cases hx : x = k
      · subst hx
        simp at h
      · rw [if_neg hx]
        apply ih
        rw [List.idxOf_cons_ne l hx] at h
        simpa using h

theorem dictGet_zip_some (l : List String) (a : List Val) (k : String) (v : Val) (hk : k ∈ l) (h : a[l.idxOf k]? = some v) :
    dictGet (l.zip a) k = some v := by
  induction l generalizing a with
  | nil => simp at hk
  | cons x l ih =>
    cases a with
    | nil => simp at h
    | cons y a =>
      rw [List.zip_cons_cons, dictGet_cons]
      by_cases hx : x = k
      · subst hx
        simpa using h
      · rw [if_neg hx]
        rw [List.idxOf_cons_ne l hx] at h
        refine ih a ?_ (by simpa using h)
        rw [List.mem_cons] at hk
        exact hk.resolve_left fun h => hx h.symm

theorem idxOf_append_le (l r : List String) (k : String) : (l ++ r).idxOf k = l.idxOf k ∨ l.length ≤ (l ++ r).idxOf k := by
  by_cases h : k ∈ l
  · exact .inl (List.idxOf_append_of_mem h)
  · right
    rw [List.idxOf_append_of_notMem h]
    omega

/-- A value by keyword is the value of the parameter, if no value is given by position. -/
theorem given_kw {s : Sig} {c : Call} {k : String} {v : Val} (hlen : c.args.length ≤ s.names.idxOf k) (h : dictGet c.kwargs k = some v) :
    dictGet (given s c) k = some v := by
  unfold given
  rw [dictGet_append]
  have : dictGet ((s.pos.map (·.name)).zip c.args) k = none := by
    by_cases hk : k ∈ s.pos.map (·.name)
    · apply dictGet_zip_none
      unfold Sig.names at hlen
      rwa [List.map_append, List.idxOf_append_of_mem hk] at hlen
    · apply dictGet_none_of_not_mem
      intro hmem
      apply hk
      obtain ⟨kv, h1, h2⟩ := List.mem_map.1 hmem
      rw [← h2]
      exact (List.of_mem_zip h1).1
  rw [this, h]
  rfl

theorem too_many {m : Method R} {c : Call} (h : m.sig.pos.length < c.args.length) : (m.run c).1 = [] := by
  unfold Method.run bind
  split
  · rfl
  · rename_i env hb
    split at hb
    · cases hb
    · rw [if_pos h] at hb
      cases hb

/-- A value by position is the value of the parameter. -/
theorem given_pos {m : Method R} {c : Call} {k : String} {v : Val} (hk : k ∈ m.sig.names) (h : c.args[m.sig.names.idxOf k]? = some v) :
    (m.run c).1 = [] ∨ dictGet (given m.sig c) k = some v := by
  have hlt := (List.getElem?_eq_some_iff.1 h).1
  by_cases hmany : m.sig.pos.length < c.args.length
  · exact .inl (too_many hmany)
  · right
    unfold Sig.names at h hlt
    rw [List.map_append] at h hlt
    have hpos : k ∈ m.sig.pos.map (·.name) := by
      by_contra hc
      rw [List.idxOf_append_of_notMem hc, List.length_map] at hlt
      omega
    rw [List.idxOf_append_of_mem hpos] at h
    unfold given
    rw [dictGet_append, dictGet_zip_some _ _ _ _ hpos h]
    rfl

theorem forParams_args (s : Sig) (values : Val) (c : Call) : (forParams s values c).args = c.args := by
  unfold forParams
  split
  · split <;> rfl
  · rfl

theorem forParams_kw (s : Sig) (values : Val) (c : Call) (k : String) (v : Val) (hk : k ≠ "params") (h : dictGet c.kwargs k = some v) :
    dictGet (forParams s values c).kwargs k = some v := by
  unfold forParams
  split
  · split
    · exact h
    · dsimp only
      rw [dictGet_append, h]
      rfl
  · dsimp only
    rw [dictGet_dropKey _ _ _ hk]
    exact h

/-- The limits that are given, possibly with `params` added or removed. -/
theorem limits_env {m : Method R} {c c' : Call} {n : ℕ} (hk : "limits" ∈ m.sig.names) (hg : GivesLimits m.sig c n)
    (hargs : c'.args.length = c.args.length)
    (hget : c.args[m.sig.names.idxOf "limits"]? = some (.limits n) → c'.args[m.sig.names.idxOf "limits"]? = some (.limits n))
    (hkw : dictGet c.kwargs "limits" = some (.limits n) → dictGet c'.kwargs "limits" = some (.limits n)) :
    ∀ env ∈ (m.run c').1, dictGet env "limits" = some (.limits n) := by
  rcases hg with ⟨_, h⟩ | ⟨hlen, h⟩
  · rcases given_pos hk (hget h) with h' | h'
    · rw [h']; simp
    · exact run_env hk h'
  · exact run_env hk (given_kw (by rw [hargs]; exact hlen) (hkw h))

/-- The norm that is put in the place of the one given. -/
theorem norm_env {m : Method R} {c : Call} {v w : Val} (hk : "norm" ∈ m.sig.names) (hg : GivesNorm m.sig c v) (values : Val) :
    ∀ env ∈ (m.run (forParams m.sig values (withNorm m.sig c w))).1, dictGet env "norm" = some w := by
  rcases hg with ⟨hv, hlen⟩ | ⟨hnk, hv⟩
  · refine run_env hk (given_kw ?_ (forParams_kw _ _ _ _ _ (by decide) ?_))
    · rw [forParams_args]
      unfold withNorm
      rw [if_pos (mem_keys hv)]
      exact hlen
    · unfold withNorm
      rw [if_pos (mem_keys hv)]
      exact dictGet_set_self _ _ _
  · have hlt := (List.getElem?_eq_some_iff.1 hv).1
    have : (forParams m.sig values (withNorm m.sig c w)).args[m.sig.names.idxOf "norm"]? = some w := by
      rw [forParams_args]
      unfold withNorm
      rw [if_neg hnk]
      simp [hlt]
    rcases given_pos hk this with h | h
    · rw [h]; simp
    · exact run_env hk h

/-- The limits seen by a method, decorated or not, after the decorators have passed the call on. -/
theorem noMultiple_eq {m : Method R} (f : Call → Ran R) (c : Call) (n : ℕ)
    (hl : "limits" ∈ m.sig.names → GivesLimits m.sig c n) :
    noMultiple m.sig f c = if "limits" ∈ m.sig.names ∧ n > 1 then ([], .error (.raised .multipleLimitsNotImplemented)) else f c := by
  unfold noMultiple
  by_cases h : "limits" ∈ m.sig.names
  · rw [index?_some h]
    dsimp only
    rcases hl h with ⟨h1, h2⟩ | ⟨h1, h2⟩
    · rw [if_pos h1, h2]
      simp [Val.pieces, h]
    · rw [if_neg (by omega), h2]
      simp [Val.pieces, h]
  · rw [index?_none h]
    simp [h]

/-- What a call of a decorated method does. -/
theorem supported_eq {m : Method R} (hm : Plain m) (hn : "norm" ∈ m.sig.names) (hr : "norm_range" ∉ m.sig.names)
    (supp : Support) (multiple : Bool) (o : Owner) (values : Val) (c : Call) (hk : "norm_range" ∉ c.keys) (v : Val)
    (hg : GivesNorm m.sig c v) (n : ℕ) (hl : "limits" ∈ m.sig.names → GivesLimits m.sig c n) :
    m.supported supp multiple o values c =
      if multiple = false ∧ "limits" ∈ m.sig.names ∧ n > 1 then ([], .error (.raised .multipleLimitsNotImplemented))
      else if covers supp o v then m.run (forParams m.sig values (withNorm m.sig c (seen supp o v)))
      else ([], .error (.raised .normNotImplemented)) := by
  unfold Method.supported
  dsimp only
  cases multiple with
  | true => simp [checkNorm_eq hm hn hr supp o values c hk v hg]
  | false =>
    rw [if_neg (by simp), noMultiple_eq _ _ n hl, checkNorm_eq hm hn hr supp o values c hk v hg]
    simp

/-! ## C193 -/

/-- C193, in part: a method with a parameter `norm` that declares which norms it supports is run only with norms it declared: a norm that is
not covered gives the exception that the library turns into a division by the normalisation, without the body being run; otherwise the body
sees the norm, with `False` in place of a space without limits.  Missing: methods that name the parameter otherwise, or that have also the
old name, see below; bodies that raise a `TypeError` about unexpected keyword arguments. -/
theorem declared_norm_partial {m : Method R} (hm : Plain m) (hn : "norm" ∈ m.sig.names) (hr : "norm_range" ∉ m.sig.names)
    (supp : Support) (multiple : Bool) (o : Owner) (values : Val) (c : Call) (hk : "norm_range" ∉ c.keys) (v : Val)
    (hg : GivesNorm m.sig c v) (n : ℕ) (hl : "limits" ∈ m.sig.names → GivesLimits m.sig c n) :
    let r := m.supported supp multiple o values c
    (∀ env ∈ r.1, covers supp o v = true ∧ dictGet env "norm" = some (seen supp o v)) ∧
    (covers supp o v = false → r.1 = [] ∧
      (r.2 = .error (.raised .normNotImplemented) ∨ r.2 = .error (.raised .multipleLimitsNotImplemented))) ∧
    (covers supp o v = false → n ≤ 1 → r.2 = .error (.raised .normNotImplemented)) := by
  dsimp only
  rw [supported_eq hm hn hr supp multiple o values c hk v hg n hl]
  refine ⟨?_, ?_, ?_⟩
  · intro env henv
    split at henv
    · simp at henv
    · split at henv
      · rename_i hc
        exact ⟨hc, norm_env hn hg values env henv⟩
      · simp at henv
  · intro hc
    rw [hc]
    split <;> simp
  · intro hc h1
    rw [if_neg (by omega), hc]
    simp

/-- `_pdf(self, x, norm)` as it is called by the library, with a range, the range of the PDF, and no norm -/
example :
    let m : Method Val := ⟨⟨[⟨"x", none⟩, ⟨"norm", none⟩], []⟩, fun env => .ok ((dictGet env "norm").getD .none)⟩
    let o : Owner := ⟨⟨1, false⟩, ⟨1, false⟩⟩
    m.supported (.some false false) false o (.thing 9) ⟨[.thing 0, .space ⟨1, false⟩], []⟩ = ([], .error (.raised .normNotImplemented)) ∧
    m.supported (.some true false) false o (.thing 9) ⟨[.thing 0, .space ⟨1, false⟩], []⟩ =
      ([[("x", .thing 0), ("norm", .space ⟨1, false⟩)]], .ok (.space ⟨1, false⟩)) ∧
    m.supported (.some true false) false o (.thing 9) ⟨[.thing 0, .space ⟨2, true⟩], []⟩ =
      ([[("x", .thing 0), ("norm", .false)]], .ok .false) ∧
    "norm" ∈ m.sig.names ∧ GivesNorm m.sig ⟨[.thing 0, .space ⟨1, false⟩], []⟩ (.space ⟨1, false⟩) := by
  refine ⟨by decide +kernel, by decide +kernel, by decide +kernel, by decide, .inr ⟨by decide, by decide⟩⟩

/-- C193 is violated by a method that has both `norm` and the old `norm_range`, as the base class itself has: without a norm, the call
fails with an `IndexError` (space.py:3289-3290 sets the position of `norm_range`, which is not there). -/
theorem both_names_violated :
    let m : Method Val := ⟨⟨[⟨"x", none⟩, ⟨"norm", none⟩], [⟨"norm_range", some .none⟩]⟩, fun _ => .ok (.thing 1)⟩
    m.supported (.some false false) false ⟨⟨1, false⟩, ⟨1, false⟩⟩ (.thing 9) ⟨[.thing 0, .space ⟨2, true⟩], []⟩ =
      ([], .error (.raised .indexError)) := by
  decide +kernel

/-- C193 is violated by a method that names the parameter otherwise: it is run with a norm that it does not support, so that the value is
not normalised. -/
theorem other_name_violated :
    let m : Method Val := ⟨⟨[⟨"x", none⟩, ⟨"n", none⟩], []⟩, fun _ => .ok (.thing 1)⟩
    m.supported (.some false false) false ⟨⟨1, false⟩, ⟨1, false⟩⟩ (.thing 9) ⟨[.thing 0, .space ⟨2, false⟩], []⟩ =
      ([[("x", .thing 0), ("n", .space ⟨2, false⟩)]], .ok (.thing 1)) := by
  decide +kernel

/-! ## C194 -/

/-- The body sees the limits in every run of a call that gives them. -/
def Sound (s : Sig) (n : ℕ) (f : Call → Ran R) : Prop :=
  ∀ c, GivesLimits s c n → ∀ env ∈ (f c).1, dictGet env "limits" = some (.limits n)

theorem GivesLimits.kw {s : Sig} {c : Call} {n : ℕ} (h : GivesLimits s c n) (kw : List (String × Val))
    (hk : dictGet kw "limits" = dictGet c.kwargs "limits") : GivesLimits s { c with kwargs := kw } n := by
  rcases h with h | ⟨h1, h2⟩
  · exact .inl h
  · exact .inr ⟨h1, by rw [← h2]; exact hk⟩

theorem GivesLimits.set {s : Sig} {c : Call} {n i : ℕ} (h : GivesLimits s c n) (hi : i ≠ s.names.idxOf "limits") (v : Val) :
    GivesLimits s { c with args := c.args.set i v } n := by
  rcases h with ⟨h1, h2⟩ | ⟨h1, h2⟩
  · refine .inl ⟨by simpa using h1, ?_⟩
    rw [← h2]
    exact List.getElem?_set_ne hi
  · exact .inr ⟨by simpa using h1, h2⟩

theorem sound_again {s : Sig} {n : ℕ} {f : Call → Ran R} (hf : Sound s n f) {c : Call} (hc : GivesLimits s c n) {kw : String}
    (hkw : kw ≠ "limits") {log : List Env} (hlog : ∀ env ∈ log, dictGet env "limits" = some (.limits n)) :
    ∀ env ∈ (again f c kw log).1, dictGet env "limits" = some (.limits n) := by
  intro env henv
  unfold again at henv
  split at henv
  · rcases List.mem_append.1 henv with h | h
    · exact hlog env h
    · exact hf _ (hc.kw _ (dictGet_dropKey _ _ _ (Ne.symm hkw))) env h
  · exact hlog env henv

theorem sound_withParams {s : Sig} {n : ℕ} {f : Call → Ran R} (hf : Sound s n f) (values : Val) : Sound s n (withParams values f) := by
  intro c hc
  have hc' : GivesLimits s (if "params" ∈ c.keys then c else { c with kwargs := c.kwargs ++ [("params", values)] }) n := by
    split
    · exact hc
    · refine hc.kw _ ?_
      rw [dictGet_append]
      have : dictGet [("params", values)] "limits" = none := by simp [dictGet_cons, dictGet]
      rw [this]
      simp
  have hrun := hf _ hc'
  unfold withParams
  dsimp only
  split
  · rename_i log heq
    rw [heq] at hrun
    exact sound_again hf hc' (by decide) hrun
  · exact hrun

theorem sound_retry {s : Sig} {n : ℕ} {f : Call → Ran R} (hf : Sound s n f) : Sound s n (retryNorm f) := by
  intro c hc
  have hrun := hf c hc
  unfold retryNorm
  split
  · rename_i log heq
    rw [heq] at hrun
    exact sound_again hf hc (by decide) hrun
  · rename_i log heq
    rw [heq] at hrun
    exact sound_again hf hc (by decide) hrun
  · exact hrun

theorem falsify_limits (d : List (String × Val)) (k : String) (hk : k ≠ "limits") : dictGet (falsify d k) "limits" = dictGet d "limits" := by
  unfold falsify
  split
  · exact dictGet_set_ne _ _ _ _ (Ne.symm hk)
  · rfl

theorem index?_ne {s : Sig} {k : String} {i : ℕ} (hlim : "limits" ∈ s.names) (hk : k ≠ "limits") (h : s.index? k = some i) :
    i ≠ s.names.idxOf "limits" := by
  unfold Sig.index? at h
  split at h
  · rename_i hmem
    cases h
    intro he
    have h1 := List.getElem_idxOf (List.idxOf_lt_length_of_mem hmem)
    have h2 := List.getElem_idxOf (List.idxOf_lt_length_of_mem hlim)
    apply hk
    rw [← h1, ← h2]
    congr 1
  · cases h

theorem replaceNorm_limits {s : Sig} {n : ℕ} (hlim : "limits" ∈ s.names) {c c' : Call} (hc : GivesLimits s c n) {b : Bool}
    (h : replaceNorm s c b = .ok c') : GivesLimits s c' n := by
  unfold replaceNorm at h
  split at h
  · cases h
    refine hc.kw _ ?_
    rw [falsify_limits _ _ (by decide), falsify_limits _ _ (by decide)]
  · split at h
    · rename_i i _ hi
      split at h
      · cases h
        exact hc.set (index?_ne hlim (by decide) hi) _
      · cases h
    · rename_i j hj
      cases h
      exact hc.set (index?_ne hlim (by decide) hj) _
    · cases h
      exact hc

theorem sound_checkNorm {s : Sig} {n : ℕ} (hlim : "limits" ∈ s.names) {f : Call → Ran R} (hf : Sound s n f) (supp : Support) (o : Owner) :
    Sound s n (checkNorm supp o s f) := by
  intro c hc
  have hrun := sound_retry hf c hc
  unfold checkNorm
  dsimp only
  split
  · rename_i sp _
    have key : ∀ b : Bool, ∀ env ∈ (if b = true then
        if sp.noLimits = true then
          match replaceNorm s c (normGiven s c).2 with
          | .ok c' => retryNorm f c'
          | .error e => ([], .error e)
        else ([], .error (.raised .normNotImplemented))
      else retryNorm f c).1, dictGet env "limits" = some (.limits n) := by
      intro b
      split
      · split
        · split
          · rename_i c' hc'
            exact sound_retry hf c' (replaceNorm_limits hlim hc hc')
          · simp
        · simp
      · exact hrun
    exact key _
  · exact hrun
  · exact hrun
  · split
    · exact hrun
    · simp

/-- C194: a method that does not declare `multiple_limits` is never run with several limits, the exception that makes the library treat
the pieces is raised instead; whatever it declares and however its body ends, it sees the limits that were given in every run. -/
theorem declared_limits (m : Method R) (hlim : "limits" ∈ m.sig.names) (supp : Support) (multiple : Bool) (o : Owner) (values : Val) (c : Call)
    (n : ℕ) (hl : GivesLimits m.sig c n) :
    let r := m.supported supp multiple o values c
    (∀ env ∈ r.1, dictGet env "limits" = some (.limits n) ∧ (multiple = true ∨ n ≤ 1)) ∧
    (multiple = false → n > 1 → r = ([], .error (.raised .multipleLimitsNotImplemented))) := by
  dsimp only
  have hsound : Sound m.sig n (checkNorm supp o m.sig (withParams values m.run)) :=
    sound_checkNorm hlim (sound_withParams (fun c hc => limits_env hlim hc rfl id id) values) supp o
  have hrun := hsound c hl
  unfold Method.supported
  dsimp only
  cases multiple with
  | true =>
    rw [if_pos rfl]
    exact ⟨fun env h => ⟨hrun env h, .inl rfl⟩, fun h => by cases h⟩
  | false =>
    rw [if_neg (by simp), noMultiple_eq _ _ n fun _ => hl]
    by_cases h1 : n > 1
    · rw [if_pos ⟨hlim, h1⟩]
      exact ⟨by simp, fun _ _ => rfl⟩
    · rw [if_neg (fun h => h1 h.2)]
      exact ⟨fun env h => ⟨hrun env h, .inr (by omega)⟩, fun _ h => absurd h h1⟩

/-- a call with limits and a norm that are supported does reach the body -/
theorem limits_reach {m : Method R} (hm : Plain m) (hn : "norm" ∈ m.sig.names) (hr : "norm_range" ∉ m.sig.names)
    (supp : Support) (multiple : Bool) (o : Owner) (values : Val) (c : Call) (hk : "norm_range" ∉ c.keys) (v : Val) (hg : GivesNorm m.sig c v)
    (n : ℕ) (hl : "limits" ∈ m.sig.names → GivesLimits m.sig c n) (hc : covers supp o v = true) (h1 : multiple = true ∨ n ≤ 1) :
    m.supported supp multiple o values c = m.run (forParams m.sig values (withNorm m.sig c (seen supp o v))) := by
  rw [supported_eq hm hn hr supp multiple o values c hk v hg n hl, if_neg, if_pos hc]
  rintro ⟨h2, _, h3⟩
  rcases h1 with h1 | h1
  · rw [h1] at h2; cases h2
  · omega

/-- `_sample(self, n, limits)`, without a norm, for one and for two pieces -/
example :
    let m : Method ℕ := ⟨⟨[⟨"n", none⟩, ⟨"limits", none⟩], []⟩, fun _ => .ok 1⟩
    let o : Owner := ⟨⟨1, false⟩, ⟨1, false⟩⟩
    let call (n : ℕ) : Call := ⟨[], [("n", .thing 5), ("limits", .limits n)]⟩
    m.supported (.some false false) false o (.thing 9) (call 2) = ([], .error (.raised .multipleLimitsNotImplemented)) ∧
    m.supported (.some false false) false o (.thing 9) (call 1) = ([[("n", .thing 5), ("limits", .limits 1)]], .ok 1) ∧
    GivesLimits m.sig (call 2) 2 := by
  refine ⟨by decide +kernel, by decide +kernel, .inr ⟨by decide, by decide⟩⟩

/-- `_integrate(self, limits, norm, options)` as it is called by the library -/
example :
    let m : Method ℕ := ⟨⟨[⟨"limits", none⟩, ⟨"norm", none⟩, ⟨"options", none⟩], []⟩, fun _ => .ok 1⟩
    let o : Owner := ⟨⟨1, false⟩, ⟨1, false⟩⟩
    let call (n : ℕ) : Call := ⟨[.limits n, .false], [("options", .thing 0)]⟩
    m.supported (.some false false) false o (.thing 9) (call 2) = ([], .error (.raised .multipleLimitsNotImplemented)) ∧
    m.supported (.some false false) true o (.thing 9) (call 2) =
      ([[("limits", .limits 2), ("norm", .false), ("options", .thing 0)]], .ok 1) ∧
    GivesLimits m.sig (call 2) 2 ∧ GivesNorm m.sig (call 2) .false := by
  refine ⟨by decide +kernel, by decide +kernel, .inl ⟨by decide, by decide⟩, .inr ⟨by decide, by decide⟩⟩

/-! ## C195 -/

/-- C195, in part: a decorated method that is called with a norm and limits it supports is run exactly once if the call fits its
signature, with or without an argument `params`; it gets the values of the parameters if it has one, and its outcome is that of the call.
Missing: bodies that themselves raise a `TypeError` about an unexpected keyword argument, see `run_twice_violated`. -/
theorem called_once_partial {m : Method R} (hm : Plain m) (hn : "norm" ∈ m.sig.names) (hr : "norm_range" ∉ m.sig.names)
    (supp : Support) (multiple : Bool) (o : Owner) (values : Val) (c : Call) (hk : "norm_range" ∉ c.keys) (hp : "params" ∉ c.keys) (v : Val)
    (hg : GivesNorm m.sig c v) (hcov : covers supp o v = true) (n : ℕ) (hl : "limits" ∈ m.sig.names → GivesLimits m.sig c n)
    (hmul : multiple = true ∨ "limits" ∉ m.sig.names ∨ n ≤ 1) (hlen : c.args.length ≤ m.sig.names.idxOf "params") :
    let r := m.supported supp multiple o values c
    let call := withNorm m.sig c (seen supp o v)
    let full : Call := if "params" ∈ m.sig.names then { call with kwargs := call.kwargs ++ [("params", values)] } else call
    (∀ env, bind m.sig full = .ok env → r = ([env], m.body env) ∧ ("params" ∈ m.sig.names → dictGet env "params" = some values)) ∧
    (∀ e, bind m.sig full = .error e → r = ([], .error e)) := by
  dsimp only
  have hcall : forParams m.sig values (withNorm m.sig c (seen supp o v)) =
      (if "params" ∈ m.sig.names then { withNorm m.sig c (seen supp o v) with
        kwargs := (withNorm m.sig c (seen supp o v)).kwargs ++ [("params", values)] } else withNorm m.sig c (seen supp o v)) := by
    have hp' : "params" ∉ (withNorm m.sig c (seen supp o v)).keys := by rw [withNorm_keys]; exact hp
    unfold forParams
    split
    · simp [hp']
    · have : dropKey (withNorm m.sig c (seen supp o v)).kwargs "params" = (withNorm m.sig c (seen supp o v)).kwargs := by
        unfold dropKey
        rw [List.filter_eq_self]
        intro kv hkv
        simp only [ne_eq, decide_not, Bool.not_eq_eq_eq_not, Bool.not_true, decide_eq_false_iff_not]
        intro h
        exact hp' (by unfold Call.keys; rw [← h]; exact List.mem_map_of_mem hkv)
      rw [this]
  have hno : ¬ (multiple = false ∧ "limits" ∈ m.sig.names ∧ n > 1) := by
    rintro ⟨h1, h2, h3⟩
    rcases hmul with h | h | h
    · rw [h1] at h
      cases h
    · exact h h2
    · omega
  rw [supported_eq hm hn hr supp multiple o values c hk v hg n hl, if_neg hno, hcov, if_pos rfl, ← hcall]
  refine ⟨?_, ?_⟩
  · intro env henv
    have hrun : m.run (forParams m.sig values (withNorm m.sig c (seen supp o v))) = ([env], m.body env) := by
      unfold Method.run
      rw [henv]
    refine ⟨hrun, fun hpm => ?_⟩
    refine run_env (m := m) (c := forParams m.sig values (withNorm m.sig c (seen supp o v))) hpm (given_kw ?_ ?_) env (by rw [hrun]; simp)
    · rw [forParams_args]
      unfold withNorm
      split
      · exact hlen
      · simpa using hlen
    · rw [hcall, if_pos hpm]
      dsimp only
      rw [dictGet_append, dictGet_none_of_not_mem _ _ (by
        have hp' : "params" ∉ (withNorm m.sig c (seen supp o v)).keys := by rw [withNorm_keys]; exact hp
        exact hp')]
      rfl
  · intro e he
    unfold Method.run
    rw [he]

/-- with and without `params` -/
example :
    let m : Method ℕ := ⟨⟨[⟨"x", none⟩, ⟨"norm", none⟩], [⟨"params", none⟩]⟩, fun _ => .ok 1⟩
    let m' : Method ℕ := ⟨⟨[⟨"x", none⟩, ⟨"norm", none⟩], []⟩, fun _ => .ok 2⟩
    let o : Owner := ⟨⟨1, false⟩, ⟨1, false⟩⟩
    m.supported .all false o (.thing 9) ⟨[.thing 0, .space ⟨4, false⟩], []⟩ =
      ([[("x", .thing 0), ("norm", .space ⟨4, false⟩), ("params", .thing 9)]], .ok 1) ∧
    m'.supported .all false o (.thing 9) ⟨[.thing 0, .space ⟨4, false⟩], []⟩ = ([[("x", .thing 0), ("norm", .space ⟨4, false⟩)]], .ok 2) := by
  decide +kernel

/-- C195 is violated by a body that calls something with an argument `params` it does not have: instead of the exception, the body is run a
second time, with the default of its own argument `params` instead of the values, and this outcome is returned. -/
theorem run_twice_violated :
    let m : Method ℕ := ⟨⟨[⟨"x", none⟩, ⟨"norm", none⟩], [⟨"params", some .none⟩]⟩,
      fun env => if dictGet env "params" = some .none then .ok 7 else .error (.unexpected "params")⟩
    m.supported .all false ⟨⟨1, false⟩, ⟨1, false⟩⟩ (.thing 9) ⟨[.thing 0, .false], []⟩ =
      ([[("x", .thing 0), ("norm", .false), ("params", .thing 9)], [("x", .thing 0), ("norm", .false), ("params", .none)]], .ok 7) := by
  decide +kernel

end Zfit.Own
