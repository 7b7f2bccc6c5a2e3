import Verif.Smp.Spec
import Mathlib.Data.Fintype.EquivFin
import Mathlib.Data.Fintype.Pigeonhole

/-!
# Samplers: the arguments of the sampling function, atomicity, shapes, changes noticed
-/

namespace Zfit.Smp

open Zfit Zfit.Bin

/-! ## The values of the parameters -/

theorem dictGet_dictSet (d : List (String × Rat)) (k : String) (v : Rat) (name : String) :
    dictGet (dictSet d k v) name = if k = name then some v else dictGet d name := by
  split
  · rename_i h; subst h; exact dictGet_set_self d k v
  · rename_i h; exact dictGet_set_ne d k name v (Ne.symm h)

theorem dictGet_foldl (l : List (PKey × Rat)) (d : List (String × Rat)) (name : String) :
    dictGet (l.foldl (fun d kv => dictSet d kv.1.name kv.2) d) name = (lastGiven l name).or (dictGet d name) := by
  induction l generalizing d with
  | nil => simp [lastGiven]
  | cons kv l ih =>
    rw [List.foldl_cons, ih, dictGet_dictSet]
    unfold lastGiven
    rw [List.reverse_cons, List.find?_append]
    cases h : l.reverse.find? (fun kv => kv.1.name = name) with
    | some x => simp
    | none =>
      by_cases hk : kv.1.name = name <;> simp [hk]

theorem dictGet_byName (l : List (PKey × Rat)) (name : String) : dictGet (byName l) name = lastGiven l name := by
  unfold byName
  rw [dictGet_foldl]
  simp [dictGet]

theorem byName_keys_aux (l : List (PKey × Rat)) (d : List (String × Rat)) (h : (d.map (·.1)).Nodup) :
    ((l.foldl (fun d kv => dictSet d kv.1.name kv.2) d).map (·.1)).Nodup := by
  induction l generalizing d with
  | nil => exact h
  | cons kv l ih =>
    rw [List.foldl_cons]
    apply ih
    generalize kv.1.name = k
    generalize kv.2 = v
    clear ih
    induction d with
    | nil => simp [dictSet]
    | cons p d ihd =>
      obtain ⟨k', v'⟩ := p
      simp only [List.map_cons, List.nodup_cons] at h
      unfold dictSet
      split
      · simpa using h
      · rename_i hk
        simp only [List.map_cons, List.nodup_cons]
        refine ⟨?_, ihd h.2⟩
        intro hmem
        have : ∀ d : List (String × Rat), k' ∈ (dictSet d k v).map (·.1) → k' ∈ d.map (·.1) ∨ k' = k := by
          intro d
          induction d with
          | nil => simp [dictSet]
          | cons q d ih =>
            obtain ⟨a, b⟩ := q
            unfold dictSet
            split
            · intro h; exact .inl h
            · intro h
              simp only [List.map_cons, List.mem_cons] at h ⊢
              rcases h with h | h
              · exact .inl (.inl h)
              · rcases ih h with h | h
                · exact .inl (.inr h)
                · exact .inr h
        rcases this d hmem with h' | h'
        · exact h.1 h'
        · exact hk h'

theorem find?_reverse_nodup (e : List (String × Rat)) (h : (e.map (·.1)).Nodup) (name : String) :
    e.reverse.find? (fun p => p.1 = name) = e.find? (fun p => p.1 = name) := by
  induction e with
  | nil => rfl
  | cons p e ih =>
    simp only [List.map_cons, List.nodup_cons] at h
    rw [List.reverse_cons, List.find?_append, ih h.2, List.find?_cons]
    by_cases hp : p.1 = name
    · have : e.find? (fun p => p.1 = name) = none := by
        rw [List.find?_eq_none]
        intro q hq hqn
        simp only [decide_eq_true_eq] at hqn
        exact h.1 (by rw [hp, ← hqn]; exact List.mem_map_of_mem hq)
      simp [this, hp]
    · simp only [hp, decide_false, List.find?_cons, List.find?_nil]
      cases e.find? (fun p => decide (p.1 = name)) <;> rfl

theorem dictGet_update (d e : List (String × Rat)) (h : (e.map (·.1)).Nodup) (name : String) :
    dictGet (dictUpdate d e) name = (dictGet e name).or (dictGet d name) := by
  have h1 : dictUpdate d e = (e.map (fun p => (PKey.str p.1, p.2))).foldl (fun d kv => dictSet d kv.1.name kv.2) d := by
    unfold dictUpdate
    rw [List.foldl_map]
    rfl
  rw [h1, dictGet_foldl]
  congr 1
  unfold lastGiven dictGet
  rw [← List.map_reverse, List.find?_map]
  have h2 : ((fun kv : PKey × Rat => decide (kv.1.name = name)) ∘ fun p : String × Rat => (PKey.str p.1, p.2)) =
      fun p => decide (p.1 = name) := by
    funext p; rfl
  rw [h2, find?_reverse_nodup e h]
  cases e.find? (fun p => decide (p.1 = name)) <;> rfl

/-- With what the sampling function is called, and when it is not. -/
theorem resampleArgs_ok {defN : Nat} {defaults : List (String × Rat)} {p pv : PVals} {n : Option Nat} {k : Nat} {ps : List (String × Rat)}
    (h : resampleArgs defN defaults p pv n = .ok (k, ps)) :
    k = n.getD defN ∧ ∀ name, dictGet ps name = ((lastGiven p.pairs name).or (lastGiven pv.pairs name)).or (dictGet defaults name) := by
  have conv : ∀ (q : PVals) (e : List (String × Rat)), convertParamValues q = .ok e →
      ∀ name, dictGet (dictUpdate defaults e) name = (lastGiven q.pairs name).or (dictGet defaults name) := by
    intro q e hq name
    cases q with
    | none =>
      simp only [convertParamValues, Except.ok.injEq] at hq
      subst hq
      simp [dictUpdate, PVals.pairs, lastGiven]
    | mapping l =>
      simp only [convertParamValues, Except.ok.injEq] at hq
      subst hq
      rw [dictGet_update _ (byName l) (byName_keys_aux l [] (by simp)), dictGet_byName]
      rfl
    | result l =>
      simp only [convertParamValues, Except.ok.injEq] at hq
      subst hq
      rw [dictGet_update _ (byName l) (byName_keys_aux l [] (by simp)), dictGet_byName]
      rfl
    | other => simp [convertParamValues] at hq
  simp only [resampleArgs, bind_eq_ok, except_pure, Except.ok.injEq, Prod.mk.injEq] at h
  obtain ⟨q, h1, e, h2, rfl, rfl⟩ := h
  have hq : (q = pv ∧ p = .none) ∨ (q = p ∧ pv = .none) := by
    unfold pickParams at h1
    split at h1
    · rename_i hp
      simp only [Except.ok.injEq] at h1
      exact .inr ⟨h1.symm, hp⟩
    · split at h1
      · rename_i hp
        simp only [Except.ok.injEq] at h1
        exact .inl ⟨h1.symm, hp⟩
      · cases h1
  have hname : ∀ name, (lastGiven p.pairs name).or (lastGiven pv.pairs name) = lastGiven q.pairs name := by
    intro name
    rcases hq with ⟨rfl, rfl⟩ | ⟨rfl, rfl⟩
    · simp [PVals.pairs, lastGiven]
    · simp [PVals.pairs, lastGiven]
  refine ⟨rfl, fun name => ?_⟩
  rw [hname]
  unfold mergeParams at h2
  split at h2
  · rename_i hn
    simp only [Except.ok.injEq] at h2
    rw [← h2, hn]
    simp [PVals.pairs, lastGiven]
  · cases hc : convertParamValues q with
    | error e' => rw [hc] at h2; cases h2
    | ok e' =>
      rw [hc] at h2
      simp only [Except.map, Except.ok.injEq] at h2
      rw [← h2, conv q e' hc]

/-! ## C158, binned: nothing a user does changes the defaults -/

theorem updateHash_params (E : Env) (st : BSampler) :
    (updateHash E st).1.params = st.params ∧ (updateHash E st).1.n = st.n ∧ (updateHash E st).1.space = st.space ∧
      (updateHash E st).1.values = st.values ∧ (updateHash E st).1.variances = st.variances := by
  unfold updateHash
  split <;> exact ⟨rfl, rfl, rfl, rfl, rfl⟩

theorem updateVariances_params (E : Env) (st : BSampler) (v : Option NDArr) :
    (updateVariances E st v).1.params = st.params ∧ (updateVariances E st v).1.n = st.n ∧ (updateVariances E st v).1.space = st.space := by
  unfold updateVariances
  split
  · exact ⟨rfl, rfl, rfl⟩
  · rename_i v' _ _
    split
    · have := updateHash_params E { st with variances := some v' }
      exact ⟨this.1, this.2.1, this.2.2.1⟩
    · exact ⟨rfl, rfl, rfl⟩
  · exact ⟨rfl, rfl, rfl⟩
  · have := updateHash_params E st
    exact ⟨this.1, this.2.1, this.2.2.1⟩

theorem updateData_params (E : Env) (st : BSampler) (s : NewData) (v : Option NDArr) :
    (st.updateData E s v).1.params = st.params ∧ (st.updateData E s v).1.n = st.n ∧ (st.updateData E s v).1.space = st.space := by
  unfold BSampler.updateData
  split
  · exact ⟨rfl, rfl, rfl⟩
  · split
    · exact updateVariances_params E { st with values := _ } _
    · exact ⟨rfl, rfl, rfl⟩
  · split
    · exact updateVariances_params E { st with values := _ } _
    · exact ⟨rfl, rfl, rfl⟩

theorem bstep_params (E : Env) (st : BSampler) (o : BOp) :
    (st.step E o).1.params = st.params ∧ (st.step E o).1.n = st.n ∧ (st.step E o).1.space = st.space := by
  cases o with
  | update s v => exact updateData_params E st s v
  | resample p pv n draw =>
    show (st.resample E p pv n draw).1.params = _ ∧ (st.resample E p pv n draw).1.n = _ ∧ (st.resample E p pv n draw).1.space = _
    unfold BSampler.resample
    split
    · exact ⟨rfl, rfl, rfl⟩
    · split
      · exact ⟨rfl, rfl, rfl⟩
      · exact updateData_params E st _ _

theorem brun_params (E : Env) (st : BSampler) (ops : List BOp) :
    (st.run E ops).params = st.params ∧ (st.run E ops).n = st.n ∧ (st.run E ops).space = st.space := by
  induction ops generalizing st with
  | nil => exact ⟨rfl, rfl, rfl⟩
  | cons o ops ih =>
    have h := bstep_params E st o
    have := ih (st.step E o).1
    rw [h.1, h.2.1, h.2.2] at this
    exact this

theorem convert_get {p : PVals} {ps : List (String × Rat)} (h : convertParamValues p = .ok ps) (name : String) :
    dictGet ps name = lastGiven p.pairs name := by
  cases p with
  | none => simp only [convertParamValues, Except.ok.injEq] at h; subst h; simp [dictGet, PVals.pairs, lastGiven]
  | mapping l => simp only [convertParamValues, Except.ok.injEq] at h; subst h; exact dictGet_byName l name
  | result l => simp only [convertParamValues, Except.ok.injEq] at h; subst h; exact dictGet_byName l name
  | other => simp [convertParamValues] at h

theorem make_fits {space : BSpace} {a : NDArr} {v : Option NDArr} {h : Holder} (hm : Holder.make space a v = .ok h) :
    h = ⟨space, a, v⟩ ∧ a.shape = bins space ∧ ∀ u, v = some u → u.shape = bins space := by
  simp only [Holder.make, bind_eq_ok] at hm
  obtain ⟨_, hvar, hm⟩ := hm
  split at hm
  · cases hm
  · split at hm
    · cases hm
    · rename_i hne
      simp only [ne_eq, Decidable.not_not, List.map_map] at hne
      cases hm
      refine ⟨rfl, hne.symm, ?_⟩
      rintro u rfl
      dsimp only at hvar
      split at hvar
      · cases hvar
      · split at hvar
        · cases hvar
        · rename_i hsh
          simp only [ne_eq, Decidable.not_not] at hsh
          rw [hsh]
          exact hne.symm

theorem make_space {space : BSpace} {a : NDArr} {v : Option NDArr} {h : Holder} (hm : Holder.make space a v = .ok h) : h.space = space := by
  rw [(make_fits hm).1]

theorem bfrom_params {E : Env} {space : BSpace} {n : Nat} {p : PVals} {draw : BDraw} {st : BSampler}
    (h : BSampler.fromSampler E space n p draw = .ok st) :
    st.space = space ∧ st.n = n ∧ convertParamValues p = .ok st.params := by
  simp only [BSampler.fromSampler, bind_eq_ok] at h
  obtain ⟨ps, h1, r, -, _, -, hh, h3, h⟩ := h
  have hsp := make_space h3
  unfold BSampler.init at h
  split at h
  · rename_i st' heq
    simp only [Except.ok.injEq] at h
    have := updateData_params E ⟨hh.space, hh.values, hh.variances, ps, n, 0⟩ (.array hh.values) hh.variances
    rw [heq, h] at this
    exact ⟨this.2.2.trans hsp, this.2.1, by rw [this.1]; exact h1⟩
  · cases h

/-- C158 for binned samplers: whatever was done before, `resample` calls the sampling function with the number of events asked for (the one
given at the creation if none is), and with each parameter at the value given now, else at the value given at the creation. -/
theorem resample_arguments_binned (E : Env) (space : BSpace) (n₀ : Nat) (p₀ : PVals) (draw₀ : BDraw) (st : BSampler)
    (hst : BSampler.fromSampler E space n₀ p₀ draw₀ = .ok st) (ops : List BOp) (p pv : PVals) (n : Option Nat) (draw : BDraw)
    (k : Nat) (ps : List (String × Rat)) (hcall : ((st.run E ops).resample E p pv n draw).2.2 = some (k, ps)) :
    k = n.getD n₀ ∧
      ∀ name, dictGet ps name = ((lastGiven p.pairs name).or (lastGiven pv.pairs name)).or (lastGiven p₀.pairs name) := by
  obtain ⟨-, hn, hps⟩ := bfrom_params hst
  obtain ⟨r1, r2, -⟩ := brun_params E st ops
  have hargs : resampleArgs (st.run E ops).n (st.run E ops).params p pv n = .ok (k, ps) := by
    unfold BSampler.resample at hcall
    split at hcall
    · cases hcall
    · rename_i k' ps' heq
      split at hcall <;> (simp only [Option.some.injEq] at hcall; rw [hcall] at heq; exact heq)
  obtain ⟨h1, h2⟩ := resampleArgs_ok hargs
  refine ⟨by rw [h1, r2, hn], fun name => ?_⟩
  rw [h2, r1, convert_get hps]

/-- C158, error branches: values of the parameters given in both ways, or as something else than a mapping or a result: nothing is sampled
and nothing changes. -/
theorem resample_refused_binned (E : Env) (st : BSampler) (p pv : PVals) (n : Option Nat) (draw : BDraw) :
    (p ≠ .none → pv ≠ .none → st.resample E p pv n draw = (st, some .valueError, none)) ∧
    (st.resample E .other .none n draw = (st, some .typeError, none)) := by
  constructor
  · intro hp hpv
    simp [BSampler.resample, resampleArgs, pickParams, hp, hpv]
  · rfl

/-- C158: in all other cases the function is called. -/
theorem resample_calls_binned (E : Env) (st : BSampler) (p : PVals) (hp : p ≠ .other) (n : Option Nat) (draw : BDraw) :
    ∃ ps, (st.resample E p .none n draw).2.2 = some (n.getD st.n, ps) := by
  have : ∃ ps, resampleArgs st.n st.params p .none n = .ok (n.getD st.n, ps) := by
    cases p with
    | none => exact ⟨_, rfl⟩
    | mapping l => exact ⟨_, rfl⟩
    | result l => exact ⟨_, rfl⟩
    | other => exact absurd rfl hp
  obtain ⟨ps, h⟩ := this
  refine ⟨ps, ?_⟩
  unfold BSampler.resample
  rw [h]
  dsimp only
  split <;> rfl

/-! ## C158, unbinned -/

theorem update_space (c : Dat.Sampler) (t : Dat.Tensor) (w : Option (List Rat)) (g : Bool) : (c.update t w g).1.space = c.space := by
  unfold Dat.Sampler.update
  split
  · rfl
  · dsimp only
    split <;> rfl

theorem uupdate_params (E : UEnv) (st : USampler) (s : UNew) (w : Option (List Rat)) (g : Bool) :
    (st.updateData E s w g).1.params = st.params ∧ (st.updateData E s w g).1.n = st.n ∧
      (st.updateData E s w g).1.core.space = st.core.space ∧ (st.updateData E s w g).1.guarantee = st.guarantee := by
  unfold USampler.updateData
  dsimp only
  split
  · exact ⟨rfl, rfl, rfl, rfl⟩
  · rename_i t w' _
    have := update_space st.core t w' g
    split <;> rename_i heq <;> rw [heq] at this <;> exact ⟨rfl, rfl, this, rfl⟩

theorem ustep_params (E : UEnv) (st : USampler) (o : UOp) :
    (st.step E o).1.params = st.params ∧ (st.step E o).1.n = st.n ∧ (st.step E o).1.core.space = st.core.space ∧
      (st.step E o).1.guarantee = st.guarantee := by
  cases o with
  | update s w g => exact uupdate_params E st s w g
  | resample p pv n draw =>
    show (st.resample E p pv n draw).1.params = _ ∧ (st.resample E p pv n draw).1.n = _ ∧ (st.resample E p pv n draw).1.core.space = _ ∧
      (st.resample E p pv n draw).1.guarantee = _
    unfold USampler.resample
    split
    · exact ⟨rfl, rfl, rfl, rfl⟩
    · split
      · exact ⟨rfl, rfl, rfl, rfl⟩
      · split
        · exact ⟨rfl, rfl, rfl, rfl⟩
        · exact uupdate_params E st _ _ _

theorem urun_params (E : UEnv) (st : USampler) (ops : List UOp) :
    (st.run E ops).params = st.params ∧ (st.run E ops).n = st.n ∧ (st.run E ops).core.space = st.core.space ∧
      (st.run E ops).guarantee = st.guarantee := by
  induction ops generalizing st with
  | nil => exact ⟨rfl, rfl, rfl, rfl⟩
  | cons o ops ih =>
    have h := ustep_params E st o
    have := ih (st.step E o).1
    rw [h.1, h.2.1, h.2.2.1, h.2.2.2] at this
    exact this

theorem ufrom_params {E : UEnv} {space : Dat.DSpace} {n : Nat} {p : PVals} {g : Bool} {draw : UDraw} {st : USampler}
    (h : USampler.fromSampler E space n p g draw = .ok st) :
    st.core.space = space ∧ st.n = n ∧ convertParamValues p = .ok st.params ∧ st.guarantee = true := by
  simp only [USampler.fromSampler, bind_eq_ok] at h
  obtain ⟨ps, h1, o, -, _, -, t, -, r, -, h⟩ := h
  unfold USampler.init at h
  split at h
  · cases h
  · split at h
    · rename_i st' heq
      simp only [Except.ok.injEq] at h
      have := uupdate_params E ⟨⟨space, r.1, r.2, r.1.rows.length⟩, ps, n, true, none⟩ (.array (.rank2 r.1)) r.2 false
      rw [heq, h] at this
      exact ⟨this.2.2.1, this.2.1, by rw [this.1]; exact h1, this.2.2.2⟩
    · cases h

/-- C158 for unbinned samplers. -/
theorem resample_arguments (E : UEnv) (space : Dat.DSpace) (n₀ : Nat) (p₀ : PVals) (g : Bool) (draw₀ : UDraw) (st : USampler)
    (hst : USampler.fromSampler E space n₀ p₀ g draw₀ = .ok st) (ops : List UOp) (p pv : PVals) (n : Option Nat) (draw : UDraw)
    (k : Nat) (ps : List (String × Rat)) (hcall : ((st.run E ops).resample E p pv n draw).2.2 = some (k, ps)) :
    k = n.getD n₀ ∧
      ∀ name, dictGet ps name = ((lastGiven p.pairs name).or (lastGiven pv.pairs name)).or (lastGiven p₀.pairs name) := by
  obtain ⟨-, hn, hps, -⟩ := ufrom_params hst
  obtain ⟨r1, r2, -, -⟩ := urun_params E st ops
  have hargs : resampleArgs (st.run E ops).n (st.run E ops).params p pv n = .ok (k, ps) := by
    unfold USampler.resample at hcall
    split at hcall
    · cases hcall
    · rename_i k' ps' heq
      split at hcall
      · simp only [Option.some.injEq] at hcall; rw [hcall] at heq; exact heq
      · split at hcall <;> (simp only [Option.some.injEq] at hcall; rw [hcall] at heq; exact heq)
  obtain ⟨h1, h2⟩ := resampleArgs_ok hargs
  refine ⟨by rw [h1, r2, hn], fun name => ?_⟩
  rw [h2, r1, convert_get hps]

/-- C158, error branches for unbinned samplers. -/
theorem resample_refused (E : UEnv) (st : USampler) (p pv : PVals) (n : Option Nat) (draw : UDraw) :
    (p ≠ .none → pv ≠ .none → st.resample E p pv n draw = (st, some .valueError, none)) ∧
    (st.resample E .other .none n draw = (st, some .typeError, none)) := by
  constructor
  · intro hp hpv
    simp [USampler.resample, resampleArgs, pickParams, hp, hpv]
  · rfl

/-- C158: in all other cases the function is called. -/
theorem resample_calls (E : UEnv) (st : USampler) (p : PVals) (hp : p ≠ .other) (n : Option Nat) (draw : UDraw) :
    ∃ ps, (st.resample E p .none n draw).2.2 = some (n.getD st.n, ps) := by
  have : ∃ ps, resampleArgs st.n st.params p .none n = .ok (n.getD st.n, ps) := by
    cases p with
    | none => exact ⟨_, rfl⟩
    | mapping l => exact ⟨_, rfl⟩
    | result l => exact ⟨_, rfl⟩
    | other => exact absurd rfl hp
  obtain ⟨ps, h⟩ := this
  refine ⟨ps, ?_⟩
  unfold USampler.resample
  rw [h]
  dsimp only
  split
  · rfl
  · split <;> rfl

/-- An array of three bins, for the examples. -/
def arr (l : List Rat) : NDArr := ⟨[l.length], fun i => l.getD (i.getD 0 0) 0⟩

/-- The hash used in examples: the sum of the first contents. -/
def exEnv : Env := ⟨true, fun a _ => (a.get [0]).num.toNat⟩

/-- A sampler of one observable with two bins, for the examples. -/
def exSampler : BSampler := ⟨⟨[⟨"x", [0, 1, 2]⟩]⟩, arr [3, 4], none, [("mu", 1), ("sigma", 2)], 7, 3⟩

/-- Non-vacuity: the sampler of the examples can be created; with `mu` given by the parameter, the function is called with the new `mu` and
the `sigma` of the creation. -/
example : BSampler.fromSampler exEnv ⟨[⟨"x", [0, 1, 2]⟩]⟩ 7 (.mapping [(.str "mu", 1), (.param "sigma", 2)]) (fun _ _ => .ok (arr [3, 4], none)) =
    .ok exSampler := by rfl

example : (exSampler.resample exEnv (.mapping [(.param "mu", 5)]) .none none (fun _ _ => .ok (arr [1, 1], none))).2 =
    (none, some (7, [("mu", 5), ("sigma", 2)])) := by rfl

/-! ## C155: updates of binned samplers -/

/-- The contents and variances that an update gives. -/
def newContents (s : NewData) (v : Option NDArr) : NDArr × Option NDArr :=
  match s with
  | .array a => (a, v)
  | .binned h => (h.values, h.variances)

/-- C155 if hashing is enabled, variances come exactly if the sampler has some, and they have as many dimensions as the contents: an update
replaces contents and variances by those given, or leaves both in place. Missing from the full claim: the cases of
`update_binned_not_atomic_violated`, `update_binned_hashing_violated`, `create_hashing_violated`. -/
theorem update_binned_partial (E : Env) (hE : E.hashing = true) (st : BSampler) (s : NewData) (v : Option NDArr)
    (hv : (newContents s v).2.isSome = st.variances.isSome)
    (hr : ∀ u, (newContents s v).2 = some u → u.shape.length = (newContents s v).1.shape.length) :
    (∃ e, st.updateData E s v = (st, some e)) ∨
    ∃ st', st.updateData E s v = (st', none) ∧ st'.values = (newContents s v).1 ∧ st'.variances = (newContents s v).2 ∧
      st'.space = st.space := by
  have main : ∀ (a : NDArr) (u : Option NDArr), u.isSome = st.variances.isSome → (∀ x, u = some x → x.shape.length = a.shape.length) →
      assignOk st.space a = true → ∃ st', updateVariances E { st with values := a } u = (st', none) ∧ st'.values = a ∧ st'.variances = u ∧
        st'.space = st.space := by
    intro a u hu hx ha
    unfold updateVariances
    cases u with
    | none =>
      cases hs : st.variances with
      | some _ => rw [hs] at hu; cases hu
      | none =>
        dsimp only
        unfold updateHash
        rw [if_pos hE]
        exact ⟨_, rfl, rfl, rfl, rfl⟩
    | some u =>
      cases hs : st.variances with
      | none => rw [hs] at hu; cases hu
      | some w =>
        dsimp only
        have hok : assignOk st.space u = true := by
          unfold assignOk at ha ⊢
          rw [hx u rfl]; exact ha
        rw [if_pos hok]
        unfold updateHash
        rw [if_pos hE]
        exact ⟨_, rfl, rfl, rfl, rfl⟩
  unfold BSampler.updateData
  cases s with
  | array a =>
    dsimp only
    by_cases ha : assignOk st.space a = true
    · rw [if_pos ha]
      exact .inr (main a v hv hr ha)
    · rw [if_neg ha]
      exact .inl ⟨_, rfl⟩
  | binned h =>
    cases v with
    | some _ => exact .inl ⟨_, rfl⟩
    | none =>
      dsimp only
      by_cases ha : assignOk st.space h.values = true
      · rw [if_pos ha]
        exact .inr (main h.values h.variances hv hr ha)
      · rw [if_neg ha]
        exact .inl ⟨_, rfl⟩

/-- C155 is violated: binned data with variances (as all data binned by zfit has) is given to a sampler without: the call raises, but the
contents have been replaced.  The hash still is that of the previous contents. -/
theorem update_binned_not_atomic_violated (E : Env) (st : BSampler) (hs : st.variances = none) (h : Holder) (v : NDArr)
    (hv : h.variances = some v) (hr : h.values.shape.length = st.space.axes.length) :
    st.updateData E (.binned h) none = ({ st with values := h.values }, some .valueError) := by
  unfold BSampler.updateData
  dsimp only
  rw [if_pos (by simp [assignOk, hr])]
  unfold updateVariances
  rw [hv]
  dsimp only
  rw [hs]

example : (exSampler.updateData exEnv (.binned ⟨exSampler.space, arr [8, 9], some (arr [8, 9])⟩) none).1.values = arr [8, 9] ∧
    (exSampler.updateData exEnv (.binned ⟨exSampler.space, arr [8, 9], some (arr [8, 9])⟩) none).1.hash = 3 := ⟨rfl, rfl⟩

/-- C155 is violated: while hashing of data is disabled, every update raises after the contents have been replaced. -/
theorem update_binned_hashing_violated (E : Env) (hE : E.hashing = false) (st : BSampler) (hs : st.variances = none) (a : NDArr)
    (hr : a.shape.length = st.space.axes.length) :
    st.updateData E (.array a) none = ({ st with values := a }, some .typeError) := by
  unfold BSampler.updateData
  dsimp only
  rw [if_pos (by simp [assignOk, hr])]
  unfold updateVariances
  dsimp only
  rw [hs]
  dsimp only
  unfold updateHash
  rw [if_neg (by simp [hE])]

/-- The consequence for the creation: no binned sampler can be created while hashing of data is disabled. -/
theorem create_hashing_violated (E : Env) (hE : E.hashing = false) (space : BSpace) (n : Nat) (p : PVals) (draw : BDraw) (st : BSampler) :
    BSampler.fromSampler E space n p draw ≠ .ok st := by
  intro h
  simp only [BSampler.fromSampler, bind_eq_ok] at h
  obtain ⟨ps, -, r, -, _, -, hh, -, h⟩ := h
  have hvar : ∀ (st : BSampler) (v : Option NDArr), ∃ e, (updateVariances E st v).2 = some e := by
    intro st v
    have hh : ∀ st : BSampler, (updateHash E st).2 = some .typeError := by
      intro st; unfold updateHash; rw [if_neg (by simp [hE])]
    unfold updateVariances
    split
    · exact ⟨_, rfl⟩
    · split
      · exact ⟨_, hh _⟩
      · exact ⟨_, rfl⟩
    · exact ⟨_, rfl⟩
    · exact ⟨_, hh _⟩
  have : ∀ (st : BSampler) (s : NewData) (v : Option NDArr), ∃ e, (st.updateData E s v).2 = some e := by
    intro st s v
    unfold BSampler.updateData
    split
    · exact ⟨_, rfl⟩
    · split
      · exact hvar _ _
      · exact ⟨_, rfl⟩
    · split
      · exact hvar _ _
      · exact ⟨_, rfl⟩
  obtain ⟨e, he⟩ := this ⟨hh.space, hh.values, hh.variances, ps, n, 0⟩ (.array hh.values) hh.variances
  unfold BSampler.init at h
  split at h
  · rename_i heq
    rw [heq] at he
    cases he
  · cases h

/-! ## C156: one content for each bin -/

/-- All arrays of an operation have the shape of the binning of the sampler. -/
def BOp.Shaped (shape : List Nat) : BOp → Prop
  | .update s v => (newContents s v).1.shape = shape ∧ (∀ u, v = some u → u.shape = shape) ∧ (∀ u, (newContents s v).2 = some u → u.shape = shape)
  | .resample _ _ _ draw => ∀ n ps a v, draw n ps = .ok (a, v) → a.shape = shape ∧ ∀ u, v = some u → u.shape = shape

theorem updateVariances_fits (E : Env) (st : BSampler) (v : Option NDArr) (hv : ∀ u, v = some u → u.shape = bins st.space) (h : st.Fits) :
    (updateVariances E st v).1.Fits := by
  have hh : ∀ st : BSampler, st.Fits → (updateHash E st).1.Fits := by
    intro st h
    obtain ⟨-, -, a, b, c⟩ := updateHash_params E st
    unfold BSampler.Fits
    rw [a, b, c]
    exact h
  unfold updateVariances
  split
  · exact h
  · split
    · apply hh
      refine ⟨h.1, ?_⟩
      intro u hu
      simp only [Option.some.injEq] at hu
      exact hv u (by rw [hu])
    · exact h
  · exact h
  · exact hh _ h

theorem bstep_fits (E : Env) (st : BSampler) (o : BOp) (ho : o.Shaped (bins st.space)) (h : st.Fits) : (st.step E o).1.Fits := by
  cases o with
  | update s v =>
    show (st.updateData E s v).1.Fits
    obtain ⟨h1, h2, h3⟩ := ho
    unfold BSampler.updateData
    cases s with
    | array a =>
      dsimp only
      split
      · exact updateVariances_fits E { st with values := a } v h2 ⟨h1, h.2⟩
      · exact h
    | binned d =>
      cases v with
      | some _ => exact h
      | none =>
        dsimp only
        split
        · exact updateVariances_fits E { st with values := d.values } d.variances h3 ⟨h1, h.2⟩
        · exact h
  | resample p pv n draw =>
    show (st.resample E p pv n draw).1.Fits
    unfold BSampler.resample
    split
    · exact h
    · split
      · exact h
      · rename_i a v heq
        obtain ⟨h1, h2⟩ := ho _ _ a v heq
        show (st.updateData E (.array a) v).1.Fits
        unfold BSampler.updateData
        dsimp only
        split
        · exact updateVariances_fits E { st with values := a } v h2 ⟨h1, h.2⟩
        · exact h

/-- C156 if all arrays given have the shape of the binning: there always is one content (and one variance) for each bin. Missing from the
full claim: the cases of `shape_binned_violated`. -/
theorem shape_binned_partial (E : Env) (space : BSpace) (n : Nat) (p : PVals) (draw : BDraw) (st : BSampler)
    (hst : BSampler.fromSampler E space n p draw = .ok st) (ops : List BOp) (hops : ∀ o ∈ ops, o.Shaped (bins space)) :
    (st.run E ops).Fits ∧ (st.run E ops).space = space := by
  have hsp := (bfrom_params hst).1
  have h0 : st.Fits := by
    simp only [BSampler.fromSampler, bind_eq_ok] at hst
    obtain ⟨ps, h1, r, h2, _, -, hh, h3, h⟩ := hst
    obtain ⟨rfl, hfit⟩ := make_fits h3
    unfold BSampler.init at h
    split at h
    · rename_i st' heq
      simp only [Except.ok.injEq] at h
      have := bstep_fits E ⟨space, r.1, r.2, ps, n, 0⟩ (.update (.array r.1) r.2)
        ⟨hfit.1, fun u hu => hfit.2 u hu, fun u hu => hfit.2 u hu⟩ hfit
      have heq' : (BSampler.step E ⟨space, r.1, r.2, ps, n, 0⟩ (.update (.array r.1) r.2)).1 = st := by
        show (BSampler.updateData E _ _ _).1 = st
        rw [heq, h]
      rw [heq'] at this
      exact this
    · cases h
  have hrun : ∀ (ops : List BOp) (st : BSampler), st.space = space → (∀ o ∈ ops, o.Shaped (bins space)) → st.Fits → (st.run E ops).Fits := by
    intro ops
    induction ops with
    | nil => intro st _ _ h; exact h
    | cons o ops ih =>
      intro st hs ho h
      refine ih (st.step E o).1 ((bstep_params E st o).2.2.trans hs) (fun o' h' => ho o' (List.mem_cons_of_mem _ h')) ?_
      apply bstep_fits E st o _ h
      rw [hs]
      exact ho o List.mem_cons_self
  refine ⟨hrun ops st hsp hops h0, ?_⟩
  rw [(brun_params E st ops).2.2, hsp]

/-- C156 is violated: three contents are accepted for two bins. -/
theorem shape_binned_violated :
    (exSampler.updateData exEnv (.array (arr [1, 2, 3])) none).2 = none ∧
    ¬ (exSampler.updateData exEnv (.array (arr [1, 2, 3])) none).1.Fits := by
  refine ⟨rfl, ?_⟩
  rintro ⟨h, -⟩
  have : [3] = [2] := h
  simp at this

/-! ## C157: histograms given to a binned sampler -/

/-- C157 for data with the same axes in the same order: every bin gets the content of that bin. Missing from the full claim: the cases of
`update_order_violated`, `update_bins_violated`. -/
theorem update_by_name_partial (E : Env) (hE : E.hashing = true) (st : BSampler) (h : Holder) (hsp : h.space.axes = st.space.axes)
    (hv : h.variances.isSome = st.variances.isSome) (hr : h.values.shape.length = h.space.axes.length)
    (hrv : ∀ v, h.variances = some v → v.shape.length = h.values.shape.length) (c : String → Nat) :
    ∃ st', st.updateData E (.binned h) none = (st', none) ∧ content st'.space.obs st'.values c = content h.space.obs h.values c := by
  rcases update_binned_partial E hE st (.binned h) none hv hrv with ⟨e, he⟩ | ⟨st', h1, h2, -, h4⟩
  · exfalso
    have ha : assignOk st.space h.values = true := by simp [assignOk, hr, hsp]
    unfold BSampler.updateData at he
    dsimp only at he
    rw [if_pos ha] at he
    unfold updateVariances at he
    cases hh : h.variances with
    | none =>
      rw [hh] at hv he
      cases hs : st.variances with
      | some _ => rw [hs] at hv; cases hv
      | none =>
        dsimp only at he
        rw [hs] at he
        dsimp only at he
        unfold updateHash at he
        rw [if_pos hE] at he
        simp at he
    | some u =>
      rw [hh] at hv he
      cases hs : st.variances with
      | none => rw [hs] at hv; cases hv
      | some _ =>
        dsimp only at he
        rw [hs] at he
        dsimp only at he
        have hok : assignOk st.space u = true := by simp [assignOk, hrv u hh, hr, hsp]
        rw [if_pos hok] at he
        unfold updateHash at he
        rw [if_pos hE] at he
        simp at he
  · refine ⟨st', h1, ?_⟩
    rw [h2, h4]
    show content st.space.obs h.values c = _
    unfold BSpace.obs
    rw [hsp]

/-- A two dimensional array of two by two bins, for the examples. -/
def arr2 (a b c d : Rat) : NDArr := ⟨[2, 2], fun i => if i = [0, 0] then a else if i = [0, 1] then b else if i = [1, 0] then c else d⟩

/-- C157 is violated: data with the observables in another order is accepted, and its contents end up in other bins. -/
theorem update_order_violated :
    let st : BSampler := ⟨⟨[⟨"x", [0, 1, 2]⟩, ⟨"y", [0, 1, 2]⟩]⟩, arr2 0 0 0 0, none, [], 1, 0⟩
    let h : Holder := ⟨⟨[⟨"y", [0, 1, 2]⟩, ⟨"x", [0, 1, 2]⟩]⟩, arr2 1 2 3 4, none⟩
    let c : String → Nat := fun o => if o = "x" then 1 else 0
    (st.updateData exEnv (.binned h) none).2 = none ∧
      content h.space.obs h.values c = 2 ∧
      content st.space.obs (st.updateData exEnv (.binned h) none).1.values c = 3 := by
  refine ⟨by rfl, by decide +kernel, by decide +kernel⟩

/-- C157 is violated: data with other bins is accepted, the content of the bin from 10 to 20 is taken for the one from 0 to 1. -/
theorem update_bins_violated :
    let h : Holder := ⟨⟨[⟨"x", [10, 20, 30]⟩]⟩, arr [5, 6], none⟩
    (exSampler.updateData exEnv (.binned h) none).2 = none ∧
      (exSampler.updateData exEnv (.binned h) none).1.space = ⟨[⟨"x", [0, 1, 2]⟩]⟩ ∧
      (exSampler.updateData exEnv (.binned h) none).1.values.get [0] = 5 := by
  refine ⟨by rfl, by rfl, by decide +kernel⟩

/-! ## C159: losses notice that their data changed -/

theorem any_ne (now old : List (Option Nat)) (hlen : now.length = old.length) :
    (now.zip old).any (fun p => p.1 ≠ p.2) = true ↔ now ≠ old := by
  induction now generalizing old with
  | nil =>
    cases old with
    | nil => simp
    | cons => simp at hlen
  | cons a now ih =>
    cases old with
    | nil => simp at hlen
    | cons b old =>
      simp only [List.length_cons, Nat.add_right_cancel_iff] at hlen
      have := ih old hlen
      simp only [List.zip_cons_cons, List.any_cons, Bool.or_eq_true, decide_eq_true_eq, ne_eq, List.cons.injEq, not_and_or] at this ⊢
      rw [this]

theorem evaluate_checked (old now : List (Option Nat)) (hlen : now.length = old.length) :
    (⟨true, old⟩ : Checked).evaluate now = (decide (now ≠ old), ⟨true, now⟩) := by
  unfold Checked.evaluate Checked.get
  by_cases h : now ≠ old
  · rw [if_pos ((any_ne now old hlen).2 h)]
    simp [h]
  · rw [if_neg (fun h' => h ((any_ne now old hlen).1 h'))]
    simp only [ne_eq, Decidable.not_not] at h
    simp [h]

theorem after_last (m : Nat) (evals : List (List (Option Nat))) (h : ∀ l ∈ evals, l.length = m) (last : List (Option Nat)) (hl : last.length = m) :
    Checked.after (evals ++ [last]) = ⟨true, last⟩ := by
  induction evals using List.reverseRecOn generalizing last with
  | nil => simp [Checked.after, Checked.evaluate, Checked.get]
  | append_singleton evals x ih =>
    unfold Checked.after at ih ⊢
    rw [List.foldl_append, ih (fun l hl => h l (List.mem_append_left _ hl)) x (h x (by simp))]
    simp only [List.foldl_cons, List.foldl_nil]
    rw [evaluate_checked]
    rw [hl, h x (by simp)]

/-- C159: whatever evaluations a loss has seen, an evaluation checks the data exactly if the hash of one of the data sets differs from that at
the previous evaluation.  The first evaluation always checks. -/
theorem notice_changed (m : Nat) (evals : List (List (Option Nat))) (h : ∀ l ∈ evals, l.length = m) (old now : List (Option Nat))
    (ho : old.length = m) (hn : now.length = m) :
    ((Checked.after (evals ++ [old])).evaluate now).1 = decide (now ≠ old) ∧ ((Checked.after []).evaluate now).1 = true := by
  refine ⟨?_, by simp [Checked.after, Checked.evaluate, Checked.get]⟩
  rw [after_last m evals h old ho, evaluate_checked _ _ (hn.trans ho.symm)]

theorem update_hash_eq (E : Env) (st st' : BSampler) (s : NewData) (v : Option NDArr) (h : st.updateData E s v = (st', none)) :
    st'.hash = E.hash st'.values st'.variances % 4096 := by
  have hh : ∀ st st' : BSampler, updateHash E st = (st', none) → st'.hash = E.hash st'.values st'.variances % 4096 := by
    intro st st' h
    unfold updateHash at h
    split at h
    · simp only [Prod.mk.injEq, and_true] at h
      subst h
      simp
    · simp at h
  have hv : ∀ (st st' : BSampler) (v : Option NDArr), updateVariances E st v = (st', none) →
      st'.hash = E.hash st'.values st'.variances % 4096 := by
    intro st st' v h
    unfold updateVariances at h
    split at h
    · simp at h
    · split at h
      · exact hh _ _ h
      · simp at h
    · simp at h
    · exact hh _ _ h
  unfold BSampler.updateData at h
  split at h
  · simp at h
  · split at h
    · exact hv _ _ _ h
    · simp at h
  · split at h
    · exact hv _ _ _ h
    · simp at h

/-- C159 for a binned sampler that was updated successfully, after any evaluations of the loss: the next evaluation checks the data exactly
if the hashes of the old and the new contents differ modulo 4096. Missing from the full claim: the cases of `notice_collision_violated`,
`notice_failed_update_violated`, `notice_hashing_violated`. -/
theorem notice_update_partial (E : Env) (st st₁ st₂ : BSampler) (s₁ s₂ : NewData) (v₁ v₂ : Option NDArr)
    (h₁ : st.updateData E s₁ v₁ = (st₁, none)) (h₂ : st₁.updateData E s₂ v₂ = (st₂, none)) (evals : List (Option Nat)) :
    ((Checked.after (evals.map ([·]) ++ [[some st₁.hash]])).evaluate [some st₂.hash]).1 =
      decide (E.hash st₂.values st₂.variances % 4096 ≠ E.hash st₁.values st₁.variances % 4096) := by
  rw [(notice_changed 1 (evals.map ([·])) (by simp) _ _ rfl rfl).1, update_hash_eq E _ _ _ _ h₁, update_hash_eq E _ _ _ _ h₂]
  simp

/-- C159 is violated for every hash function: there are two contents of a histogram with one bin that differ, but when the sampler changes
from one to the other, the loss does not check its data again. -/
theorem notice_collision_violated (E : Env) (hE : E.hashing = true) :
    ∃ a b : ℚ, a ≠ b ∧ ∃ st₁ st₂ : BSampler,
      (⟨⟨[⟨"x", [0, 1]⟩]⟩, arr [0], none, [], 1, 0⟩ : BSampler).updateData E (.array (arr [a])) none = (st₁, none) ∧
      st₁.updateData E (.array (arr [b])) none = (st₂, none) ∧ st₂.values.get [0] = b ∧ st₁.values.get [0] = a ∧
      ((Checked.after [[some st₁.hash]]).evaluate [some st₂.hash]).1 = false := by
  obtain ⟨i, j, hij, heq⟩ := Finite.exists_ne_map_eq_of_infinite
    (fun n : ℕ => (⟨E.hash (arr [(n : ℚ)]) none % 4096, Nat.mod_lt _ (by norm_num)⟩ : Fin 4096))
  simp only [Fin.mk.injEq] at heq
  have hup : ∀ (st : BSampler) (a : ℚ), st.space = ⟨[⟨"x", [0, 1]⟩]⟩ → st.variances = none →
      st.updateData E (.array (arr [a])) none = ({ st with values := arr [a], hash := E.hash (arr [a]) none % 4096 }, none) := by
    intro st a hs hv
    have hok : assignOk st.space (arr [a]) = true := by rw [hs]; rfl
    unfold BSampler.updateData
    dsimp only
    rw [if_pos hok]
    unfold updateVariances
    dsimp only
    rw [hv]
    dsimp only
    unfold updateHash
    rw [if_pos hE]
    simp [hv]
  refine ⟨i, j, by exact_mod_cast hij, _, _, hup _ _ rfl rfl, hup _ _ rfl rfl, rfl, rfl, ?_⟩
  have := (notice_changed 1 [] (by simp) [some (E.hash (arr [(i : ℚ)]) none % 4096)] [some (E.hash (arr [(j : ℚ)]) none % 4096)] rfl rfl).1
  simp only [List.nil_append] at this
  rw [this, heq]
  simp

/-- C159 is violated also without a collision: after an update that raised (see `update_binned_not_atomic_violated`) the contents are new but
the hash is not. -/
theorem notice_failed_update_violated (E : Env) (st : BSampler) (hs : st.variances = none) (h : Holder) (v : NDArr)
    (hv : h.variances = some v) (hr : h.values.shape.length = st.space.axes.length) :
    let st' := (st.updateData E (.binned h) none).1
    st'.values = h.values ∧ ((Checked.after [[some st.hash]]).evaluate [some st'.hash]).1 = false := by
  intro st'
  have : st' = { st with values := h.values } := by
    show (st.updateData E (.binned h) none).1 = _
    rw [update_binned_not_atomic_violated E st hs h v hv hr]
  refine ⟨by rw [this], ?_⟩
  have h2 := (notice_changed 1 [] (by simp) [some st.hash] [some st'.hash] rfl rfl).1
  simp only [List.nil_append] at h2
  rw [h2, this]
  simp

/-- C159 is violated for unbinned samplers while hashing of data is disabled: there is no hash before and after. -/
theorem notice_hashing_violated (E : UEnv) (hE : E.hashing = false) (st st' : USampler) (s : UNew) (w : Option (List Rat)) (g : Bool)
    (hst : st.hash = none) (h : st.updateData E s w g = (st', none)) :
    ((Checked.after [[st.hash]]).evaluate [st'.hash]).1 = false := by
  have h1 : st'.hash = none := by
    unfold USampler.updateData at h
    dsimp only at h
    split at h
    · simp at h
    · split at h
      · simp only [Prod.mk.injEq, and_true] at h
        subst h
        simp [uHash, hE]
      · simp at h
  have h2 := (notice_changed 1 [] (by simp) [st.hash] [st'.hash] rfl rfl).1
  simp only [List.nil_append] at h2
  rw [h2, h1, hst]
  simp

/-- Non-vacuity: an update that is noticed. -/
example : ((Checked.after [[some exSampler.hash]]).evaluate [some (exSampler.updateData exEnv (.array (arr [5, 6])) none).1.hash]).1 = true := by
  decide +kernel

end Zfit.Smp
