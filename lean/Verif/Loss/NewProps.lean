import Verif.Loss.NewModel
import Verif.Loss.Props
import Mathlib.Data.List.GetD
import Mathlib.Data.List.Nodup
import Mathlib.Data.List.Induction

/-!
# C241-C248: losses made from losses, their options, functions as losses
-/

namespace Zfit.Loss

open Zfit

variable {Θ X : Type}

/-! ## C241: what is given is replaced, the rest is kept -/

/-- C241, the part that holds: `create_new` gives a loss of the same class with what was given and everything else of the loss, in particular
its options and the constant that was found, as long as there are as many models as datasets and fit ranges (of an unbinned loss) and the
data are `Data`. Missing: other numbers of components and arrays, see `create_new_more_violated` and `create_new_array_violated`. -/
theorem create_new_partial (l : Loss Θ X) (s : State) (a : NewArgs Θ X) (model : List (Mod Θ X)) (data : List (Dat X))
    (ranges : List (Option (Range X))) (hm : model = a.model.getD l.model) (hd : data = (a.data.map (·.map (·.2))).getD l.data)
    (hr : ranges = match l.kind.binned, a.fitRange with
      | true, _ => data.map fun _ => none
      | false, some none => data.map fun _ => none
      | false, some (some r) => r
      | false, none => l.fitRange)
    (hlen : model.length = data.length ∧ ranges.length = data.length) (hdata : ∀ x ∈ a.data.getD [], x.1 = true) :
    l.createNew s a = .ok (⟨l.kind, model, data, ranges, a.constraints.getD l.constraints, a.opts.getD l.opts⟩,
      ⟨false, if a.opts.isSome then none else s.offset⟩) := by
  obtain ⟨h1, h2⟩ := hlen
  have hsnd : (a.data.getD (l.data.map fun d => (true, d))).map (·.2) = data := by
    rw [hd]
    cases a.data <;> simp [Function.comp_def]
  have hall : ∀ x ∈ a.data.getD (l.data.map fun d => (true, d)), x.1 = true := by
    cases hda : a.data with
    | none =>
      intro x hx
      obtain ⟨d, -, rfl⟩ := List.mem_map.1 hx
      rfl
    | some dl =>
      rw [hda] at hdata
      exact hdata
  have hzip : ∀ {α β : Type} (u : List α) (v : List β), u.length = v.length → (u.zip v).map (·.1) = u ∧ (u.zip v).map (·.2) = v := by
    intro α β u v h
    exact ⟨List.map_fst_zip (by omega), List.map_snd_zip (by omega)⟩
  unfold Loss.createNew
  rw [← hm]
  have href : ∀ b, refused l.kind b ((model.zip (a.data.getD (l.data.map fun d => (true, d)))).map (·.2)) = none := by
    intro b
    have : ((model.zip (a.data.getD (l.data.map fun d => (true, d)))).map (·.2)).all (·.1) = true := by
      rw [List.all_eq_true]
      intro x hx
      obtain ⟨y, hy, rfl⟩ := List.mem_map.1 hx
      exact hall _ (List.of_mem_zip hy).2
    simp [refused, this]
  simp only [href, hsnd]
  obtain ⟨z1, z2⟩ := hzip model data h1
  have hmake : Loss.make l.kind model data (if l.kind.binned = true then none else a.fitRange.getD (some l.fitRange))
      (a.constraints.getD l.constraints) (a.opts.getD l.opts) =
      .ok ⟨l.kind, model, data, ranges, a.constraints.getD l.constraints, a.opts.getD l.opts⟩ := by
    unfold Loss.make
    simp only [z1, z2]
    have hfill : fillRanges (model.zip data) (if l.kind.binned = true then none else a.fitRange.getD (some l.fitRange)) = ranges := by
      have hnone : (model.zip data).map (fun _ => (none : Option (Range X))) = data.map fun _ => none := by
        have hl : (model.zip data).length = data.length := by simp [h1]
        simp only [List.map_const', hl]
      cases hb : l.kind.binned with
      | true =>
        rw [hb] at hr
        simp only [if_true, fillRanges, hr, hnone]
      | false =>
        rw [hb] at hr
        simp only [Bool.false_eq_true, if_false]
        rcases hf : a.fitRange with _ | _ | r
        · rw [hf] at hr; simp [fillRanges, hr]
        · rw [hf] at hr; simp [fillRanges, hr, hnone]
        · rw [hf] at hr; simp [fillRanges, hr]
    rw [hfill, if_pos ⟨h1, h2.symm⟩]
  simp only [hmake]

/-- A loss of one dataset, another model. -/
example : ((⟨.unbinnedNLL, [exMod], [exDat], [none], [], {}⟩ : Loss Unit Unit).createNew ⟨true, some 3⟩ { model := some [exMod] }) =
    .ok (⟨.unbinnedNLL, [exMod], [exDat], [none], [], {}⟩, ⟨false, some 3⟩) := by
  simp [Loss.createNew, refused, Loss.make, fillRanges, Kind.binned]

/-- C241 is violated: from an unbinned loss of one dataset, one of two datasets cannot be made: the fit range `[None]` of the one dataset is
handed on. Directly it can be made. -/
theorem create_new_more_violated (m m₁ m₂ : Mod Θ X) (d d₁ d₂ : Dat X) (k : Kind) (hk : k.binned = false) (s : State) (cs : List (Constr Θ)) (o : Opts) :
    (∃ l, Loss.make k [m] [d] none cs o = .ok l ∧
      l.createNew s { model := some [m₁, m₂], data := some [(true, d₁), (true, d₂)] } = .error .valueError) ∧
    ∃ l, Loss.make k [m₁, m₂] [d₁, d₂] none cs o = .ok l := by
  refine ⟨⟨⟨k, [m], [d], [none], cs, o⟩, by simp [Loss.make, fillRanges], ?_⟩, ⟨k, [m₁, m₂], [d₁, d₂], [none, none], cs, o⟩,
    by simp [Loss.make, fillRanges]⟩
  simp [Loss.createNew, hk, refused, Loss.make, fillRanges]

/-- C241 is violated: an array, which the constructor accepts, is refused by `create_new` of every unbinned loss that has datasets, since the
loss has a list of fit ranges, be they all `None`. -/
theorem create_new_array_violated (l : Loss Θ X) (hk : l.kind.binned = false) (s : State) (m : Mod Θ X) (ms : List (Mod Θ X))
    (hm : l.model = m :: ms) (d : Dat X) : l.createNew s { data := some [(false, d)] } = .error .typeError := by
  simp [Loss.createNew, hk, hm, refused]

/-! ## C242: losses made from one another can be compared -/

/-- Models with bins as the data have them. -/
def SameBins (k : Kind) (ms : List (Mod Θ X)) (ds : List (Dat X)) : Prop := k.binned = true → ∀ p ∈ ms.zip ds, CountsMatch p.1 p.2

/-- How much the constant shifts the value of a term, which depends on the data only. -/
noncomputable def nllShift (d : Dat X) (r : Option (Range X)) (o : ℝ) : ℝ :=
  (match (d.cut r).2 with
    | none => ((d.cut r).1.length : ℝ)
    | some w => ((min (d.cut r).1.length w.length : ℕ) : ℝ)) * o

theorem nllTerm_shift_eq (m : Mod Θ X) (d : Dat X) (r : Option (Range X)) (o : ℝ) (θ : Θ) :
    nllTerm m d r θ (some o) = nllTerm m d r θ none + nllShift d r o := by
  unfold nllTerm nllCalc nllShift
  rcases hw : (d.cut r).2 with _ | w
  · dsimp only
    rw [hw]
    dsimp only
    rw [sum_map_sub_const, List.length_map]
    ring
  · dsimp only
    rw [hw]
    dsimp only
    rw [sum_map_sub_const, List.length_zipWith, List.length_map]
    ring

/-- The same for the additional term of an extended likelihood. -/
noncomputable def extShift (d : Dat X) (o : ℝ) : ℝ := o - stirling d.samplesize

theorem extTerm_shift_eq (m : Mod Θ X) (d : Dat X) (o : ℝ) (θ : Θ) :
    extTerm m d θ (some o) = (extTerm m d θ none).map (· + extShift d o) := by
  unfold extTerm extShift
  rcases m.yield with _ | y
  · rfl
  · simp [Except.map, addOffset, logPoissonLoss]

/-- The same for the bins of a likelihood. -/
noncomputable def poissonShift (d : Dat X) (o : ℝ) : ℝ := (d.values.map fun v => o - stirling (v + eps)).sum

theorem zipWith_shift_eq (f g : ℝ → ℝ → ℝ) (k : ℝ → ℝ) (h : ∀ x y, f x y = g x y + k y) (a b : List ℝ) (hl : a.length = b.length) :
    (List.zipWith f a b).sum = (List.zipWith g a b).sum + (b.map k).sum := by
  induction a generalizing b with
  | nil =>
    cases b with
    | nil => simp
    | cons y b => simp at hl
  | cons x a ih =>
    cases b with
    | nil => simp at hl
    | cons y b =>
      simp only [List.zipWith_cons_cons, List.sum_cons, List.map_cons, h x y, ih b (by simpa using hl)]
      ring

theorem poissonTerm_shift_eq (ext : Bool) (m : Mod Θ X) (d : Dat X) (h : CountsMatch m d) (o : ℝ) (θ : Θ) :
    poissonTerm ext m d θ (some o) = (poissonTerm ext m d θ none).map (· + poissonShift d o) := by
  unfold poissonTerm
  rcases hp : expected ext m d θ with e | p
  · rfl
  · simp only [except_bind_ok, except_pure, Except.map]
    congr 1
    exact zipWith_shift_eq _ _ (fun v => o - stirling (v + eps)) (fun x y => by simp [poissonBin, addOffset, logPoissonLoss]) p d.values
      (expected_length h ext θ p hp)

theorem chi2Term_shift_eq (ext : Bool) (er : Errors) (m : Mod Θ X) (d : Dat X) (h : CountsMatch m d) (o : ℝ) (θ : Θ) :
    chi2Term ext er m d θ (some o) = (chi2Term ext er m d θ none).map (· + d.values.length * o) := by
  unfold chi2Term
  rcases hp : expected ext m d θ with e | p
  · rfl
  · simp only [except_bind_ok]
    rcases hv : variancesOf er p d with e | v
    · rfl
    · have hl := expected_length h ext θ p hp
      have hvl : v.length = d.values.length := by
        unfold variancesOf at hv
        cases er
        · rcases hd : d.variances with _ | w
          · simp [hd] at hv
          · simp only [hd, Except.ok.injEq] at hv
            rw [← hv]; exact h.2.2 w hd
        · simp only [Except.ok.injEq] at hv
          rw [← hv, List.length_map, hl]
        · simp at hv
      simp only [except_bind_ok, except_pure, Except.map, chi2Bin, addOffset, Except.ok.injEq]
      rw [sum_map_add_const]
      simp [hl, hvl]

theorem sumTerms_shift_eq {P : Type} (f g : P → Except Err ℝ) (c : P → ℝ) (l : List P) (h : ∀ p ∈ l, f p = (g p).map (· + c p)) :
    sumTerms (l.map f) = (sumTerms (l.map g)).map (· + (l.map c).sum) := by
  induction l with
  | nil => simp [sumTerms_nil, Except.map]
  | cons p ps ih =>
    rw [List.map_cons, List.map_cons, List.map_cons, sumTerms_cons, sumTerms_cons, ih fun q hq => h q (List.mem_cons_of_mem _ hq), h p List.mem_cons_self]
    rcases g p with e | x
    · rfl
    · simp only [Except.map, except_bind_ok]
      rcases sumTerms (ps.map g) with e | y
      · rfl
      · simp only [except_bind_ok, except_pure, List.sum_cons]
        congr 1
        ring

/-- A sum with a shifted term. -/
theorem bind_map_shift (t : Except Err ℝ) (c s : ℝ) (f g : ℝ → ℝ) (h : ∀ x, f (x + c) = g x + s) :
    (t.map (· + c) >>= fun e => (pure (f e) : Except Err ℝ)) = (t >>= fun e => (pure (g e) : Except Err ℝ)).map (· + s) := by
  rcases t with e | v
  · rfl
  · simp only [Except.map, except_bind_ok, except_pure, h]

/-- How much the constraints are shifted. -/
noncomputable def constraintShift (k : Kind) (cs : List (Constr Θ)) (o : Option ℝ) : ℝ :=
  constraintSum k (cs.map fun c => (⟨fun _ => 0, c.nparams⟩ : Constr Unit)) () o

theorem constraintSum_shift_eq (k : Kind) (cs : List (Constr Θ)) (o : Option ℝ) (θ : Θ) :
    constraintSum k cs θ o = constraintSum k cs θ none + constraintShift k cs o := by
  unfold constraintShift constraintSum
  induction cs with
  | nil => simp
  | cons q qs ih =>
    cases k <;> simp only [List.map_cons, List.sum_cons, Option.getD_none] at ih ⊢ <;> linear_combination ih

/-- The value with the constant is the full value and a shift that depends on the class, the data, the fit ranges, the constraints and the
constant only. -/
theorem lossFunc_shift_data (k : Kind) (ds : List (Dat X)) (rs : List (Option (Range X))) (o : Option ℝ) (hl : rs.length = ds.length) :
    ∃ c : ℝ, ∀ (ms : List (Mod Θ X)) (cs : List (Constr Θ)) (op : Opts) (θ : Θ), ms.length = ds.length → SameBins k ms ds →
      (⟨k, ms, ds, rs, cs, op⟩ : Loss Θ X).lossFunc θ o =
        ((⟨k, ms, ds, rs, cs, op⟩ : Loss Θ X).lossFunc θ none).map (· + (c + constraintShift k cs o)) := by
  rcases o with _ | o
  · refine ⟨0, fun ms cs op θ _ _ => ?_⟩
    have h0 : constraintShift k cs none = 0 := by linarith [constraintSum_shift_eq k cs none θ]
    rcases (⟨k, ms, ds, rs, cs, op⟩ : Loss Θ X).lossFunc θ none with e | v <;> simp [Except.map, h0]
  have hpair : ∀ (ms : List (Mod Θ X)) (c : Dat X → ℝ), ms.length = ds.length → ((ms.zip ds).map fun p => c p.2) = ds.map c := by
    intro ms c hm
    have : (ms.zip ds).map (·.2) = ds := List.map_snd_zip (by omega)
    conv_rhs => rw [← this]
    simp [Function.comp_def]
  have hnll : ∀ (ms : List (Mod Θ X)) (θ : Θ), ms.length = ds.length →
      ((ms.zip (ds.zip rs)).map fun t => nllTerm t.1 t.2.1 t.2.2 θ (some o)).sum =
        ((ms.zip (ds.zip rs)).map fun t => nllTerm t.1 t.2.1 t.2.2 θ none).sum + ((ds.zip rs).map fun t => nllShift t.1 t.2 o).sum := by
    intro ms θ hm
    have h2 : (ms.zip (ds.zip rs)).map (·.2) = ds.zip rs := List.map_snd_zip (by simp; omega)
    have h3 : ((ds.zip rs).map fun t => nllShift t.1 t.2 o) = (ms.zip (ds.zip rs)).map fun t => nllShift t.2.1 t.2.2 o := by
      conv_lhs => rw [← h2]
      simp [Function.comp_def]
    rw [h3, ← List.sum_map_add]
    congr 1
    exact List.map_congr_left fun t _ => nllTerm_shift_eq _ _ _ _ _
  cases k with
  | unbinnedNLL =>
    refine ⟨((ds.zip rs).map fun t => nllShift t.1 t.2 o).sum, fun ms cs op θ hm _ => ?_⟩
    simp only [Loss.lossFunc, Except.map, hnll ms θ hm, constraintSum_shift_eq _ cs (some o) θ]
    congr 1
    ring
  | extendedUnbinnedNLL =>
    refine ⟨((ds.zip rs).map fun t => nllShift t.1 t.2 o).sum + (ds.map fun d => extShift d o).sum, fun ms cs op θ hm _ => ?_⟩
    have := sumTerms_shift_eq (fun p : Mod Θ X × Dat X => extTerm p.1 p.2 θ (some o)) (fun p => extTerm p.1 p.2 θ none)
      (fun p => extShift p.2 o) (ms.zip ds) fun p _ => extTerm_shift_eq _ _ _ _
    rw [hpair ms (fun d => extShift d o) hm] at this
    simp only [Loss.lossFunc, this, hnll ms θ hm, constraintSum_shift_eq _ cs (some o) θ]
    exact bind_map_shift _ _ _ _ _ fun x => by ring
  | binnedNLL =>
    refine ⟨(ds.map fun d => poissonShift d o).sum, fun ms cs op θ hm hb => ?_⟩
    have := sumTerms_shift_eq (fun p : Mod Θ X × Dat X => poissonTerm false p.1 p.2 θ (some o)) (fun p => poissonTerm false p.1 p.2 θ none)
      (fun p => poissonShift p.2 o) (ms.zip ds) fun p hp => poissonTerm_shift_eq _ _ _ (hb rfl p hp) _ _
    rw [hpair ms (fun d => poissonShift d o) hm] at this
    simp only [Loss.lossFunc, this, constraintSum_shift_eq _ cs (some o) θ]
    exact bind_map_shift _ _ _ _ _ fun x => by ring
  | extendedBinnedNLL =>
    refine ⟨(ds.map fun d => poissonShift d o).sum, fun ms cs op θ hm hb => ?_⟩
    have := sumTerms_shift_eq (fun p : Mod Θ X × Dat X => poissonTerm true p.1 p.2 θ (some o)) (fun p => poissonTerm true p.1 p.2 θ none)
      (fun p => poissonShift p.2 o) (ms.zip ds) fun p hp => poissonTerm_shift_eq _ _ _ (hb rfl p hp) _ _
    rw [hpair ms (fun d => poissonShift d o) hm] at this
    simp only [Loss.lossFunc, this, constraintSum_shift_eq _ cs (some o) θ]
    exact bind_map_shift _ _ _ _ _ fun x => by ring
  | binnedChi2 =>
    refine ⟨(ds.map fun d => (d.values.length : ℝ) * o).sum, fun ms cs op θ hm hb => ?_⟩
    have := sumTerms_shift_eq (fun p : Mod Θ X × Dat X => chi2Term false op.errors p.1 p.2 θ (some o)) (fun p => chi2Term false op.errors p.1 p.2 θ none)
      (fun p => (p.2.values.length : ℝ) * o) (ms.zip ds) fun p hp => chi2Term_shift_eq _ _ _ _ (hb rfl p hp) _ _
    rw [hpair ms (fun d => (d.values.length : ℝ) * o) hm] at this
    simp only [Loss.lossFunc, this, constraintSum_shift_eq _ cs (some o) θ]
    exact bind_map_shift _ _ _ _ _ fun x => by ring
  | extendedBinnedChi2 =>
    refine ⟨(ds.map fun d => (d.values.length : ℝ) * o).sum, fun ms cs op θ hm hb => ?_⟩
    have := sumTerms_shift_eq (fun p : Mod Θ X × Dat X => chi2Term true op.errors p.1 p.2 θ (some o)) (fun p => chi2Term true op.errors p.1 p.2 θ none)
      (fun p => (p.2.values.length : ℝ) * o) (ms.zip ds) fun p hp => chi2Term_shift_eq _ _ _ _ (hb rfl p hp) _ _
    rw [hpair ms (fun d => (d.values.length : ℝ) * o) hm] at this
    simp only [Loss.lossFunc, this, constraintSum_shift_eq _ cs (some o) θ]
    exact bind_map_shift _ _ _ _ _ fun x => by ring

/-- After an evaluation the constant does not change anymore, nor would it for another loss with the same options. -/
theorem findOffset_stable (l : Loss Θ X) (s : State) (θ : Θ) (o : Option ℝ) (h : l.findOffset s θ = .ok o) (l' : Loss Θ X) (θ' : Θ)
    (ho : l'.opts = l.opts) (s' : State) (hs : s'.offset = o) : l'.findOffset s' θ' = .ok o := by
  unfold Loss.findOffset at h ⊢
  rw [ho, hs]
  rcases hop : l.opts.subtr with _ | _ | c
  · rw [hop] at h
  · rw [hop] at h
    rcases hso : s.offset with _ | q
    · rw [hso] at h
      dsimp only at h
      rcases hv : l.lossFunc θ (some 0) with e | v
      · rw [hv] at h; exact absurd h (by simp [bind, Except.bind])
      · rw [hv] at h
        simp only [except_bind_ok, except_pure, Except.ok.injEq] at h
        rw [← h]
    · rw [hso] at h
      simp only [Except.ok.injEq] at h
      rw [← h]
  · rw [hop] at h
    simp only [Except.ok.injEq] at h
    rw [← h]

/-- C242, the part that holds: after an evaluation of a loss, a loss made from it with other models (and, for an unbinned loss, other
constraints) has values that differ from those of the loss as the full values do, however both are evaluated. Missing: losses made
before the first evaluation and binned losses with other constraints, see `comparable_fresh_violated` and `comparable_constraints_violated`. -/
theorem comparable_partial (l : Loss Θ X) (hl : l.Paired) (hb : l.BinsMatch) (s₀ : State) (hs₀ : s₀.precompiled = false) (θ₀ : Θ) (f₀ : Bool) (v₀ : ℝ)
    (hv₀ : (l.value s₀ θ₀ f₀).2 = .ok v₀) (ms : List (Mod Θ X)) (cs : Option (List (Constr Θ))) (hc : cs = none ∨ l.kind.binned = false)
    (l' : Loss Θ X) (s' : State) (hnew : l.createNew (l.value s₀ θ₀ f₀).1 { model := some ms, constraints := cs } = .ok (l', s'))
    (hms : ms.length = l.data.length) (hb' : SameBins l.kind ms l.data) (θ θ' : Θ) (v v' w w' : ℝ)
    (hv : ((l.value (l.value s₀ θ₀ f₀).1 θ false).2) = .ok v) (hv' : (l'.value s' θ' false).2 = .ok v')
    (hw : l.HasValue θ w) (hw' : l'.HasValue θ' w') : v' - v = w' - w := by
  -- the state after the evaluation
  obtain ⟨o, ho, hst⟩ : ∃ o, l.findOffset s₀ θ₀ = .ok o ∧ (l.value s₀ θ₀ f₀).1 = ⟨true, o⟩ := by
    rcases hf : l.findOffset s₀ θ₀ with e | o
    · simp [Loss.value, Loss.precompile, hs₀, hf] at hv₀
    · refine ⟨o, rfl, ?_⟩
      rcases hck : l.checkChi2 with e | u
      · simp [Loss.value, Loss.precompile, hs₀, hf, hck] at hv₀
      · simp [Loss.value, Loss.precompile, hs₀, hf, hck]
  rw [hst] at hv hnew
  have hnew' := create_new_partial l ⟨true, o⟩ { model := some ms, constraints := cs } ms l.data
    (match l.kind.binned with | true => l.data.map fun _ => none | false => l.fitRange) rfl rfl
    (by cases l.kind.binned <;> rfl) ⟨hms, by cases l.kind.binned <;> simp [hl.2]⟩ (by simp)
  rw [hnew'] at hnew
  simp only [Option.getD_none, Option.isSome_none, Bool.false_eq_true, if_false, Except.ok.injEq, Prod.mk.injEq] at hnew
  obtain ⟨rfl, rfl⟩ := hnew
  have hlf : ∀ (θ : Θ) (q : Option ℝ), (⟨l.kind, ms, l.data, (match l.kind.binned with | true => l.data.map fun _ => none | false => l.fitRange),
      cs.getD l.constraints, l.opts⟩ : Loss Θ X).lossFunc θ q = (⟨l.kind, ms, l.data, l.fitRange, cs.getD l.constraints, l.opts⟩ : Loss Θ X).lossFunc θ q := by
    intro θ q
    cases hk : l.kind <;> rfl
  -- the values
  have h1 : l.lossFunc θ o = .ok v := by simpa [Loss.value, Loss.precompile] using hv
  have h2 := lossFunc_of_value (hw ⟨true, o⟩)
  have h3 := lossFunc_of_value (hw' ⟨true, o⟩)
  have hfo := findOffset_stable l s₀ θ₀ o ho (⟨l.kind, ms, l.data, (match l.kind.binned with | true => l.data.map fun _ => none | false => l.fitRange),
      cs.getD l.constraints, l.opts⟩ : Loss Θ X) θ' rfl ⟨false, o⟩ rfl
  have h4 : (⟨l.kind, ms, l.data, (match l.kind.binned with | true => l.data.map fun _ => none | false => l.fitRange),
      cs.getD l.constraints, l.opts⟩ : Loss Θ X).lossFunc θ' o = .ok v' := by
    unfold Loss.value Loss.precompile at hv'
    rw [if_neg (by simp), hfo] at hv'
    dsimp only at hv'
    rcases hck : Loss.checkChi2 (⟨l.kind, ms, l.data, (match l.kind.binned with | true => l.data.map fun _ => none | false => l.fitRange),
      cs.getD l.constraints, l.opts⟩ : Loss Θ X) with e | u
    · rw [hck] at hv'; simp at hv'
    · rw [hck] at hv'; simpa using hv'
  rw [hlf] at h3 h4
  obtain ⟨c, hcc⟩ := lossFunc_shift_data (Θ := Θ) l.kind l.data l.fitRange o hl.2
  have h5 := hcc l.model l.constraints l.opts θ hl.1 hb
  have h6 := hcc ms (cs.getD l.constraints) l.opts θ' hms hb'
  rw [h4, h3] at h6
  have h5' : l.lossFunc θ o = (l.lossFunc θ none).map (· + (c + constraintShift l.kind l.constraints o)) := h5
  rw [h1, h2] at h5'
  simp only [Except.map, Except.ok.injEq] at h5' h6
  have hsame : constraintShift l.kind (cs.getD l.constraints) o = constraintShift l.kind l.constraints o := by
    rcases hc with rfl | hk
    · rfl
    · have h0 : ∀ q : List (Constr Θ), constraintShift l.kind q o = 0 := by
        intro q
        unfold constraintShift constraintSum
        induction q with
        | nil => simp
        | cons x xs ih => cases hkk : l.kind <;> simp_all [Kind.binned]
      rw [h0, h0]
  rw [h5', h6, hsame]
  ring

/-- The value of an unbinned loss of one dataset without weights when it is evaluated for the first time. -/
theorem first_value (m : Mod Θ X) (d : Dat X) (hw : d.weights = none) (hn : d.approxNevents = d.points.length) (hd : d.points ≠ []) (θ : Θ) (full : Bool) :
    ((⟨.unbinnedNLL, [m], [d], [none], [], {}⟩ : Loss Θ X).value {} θ full).2 =
      .ok (if full then -(d.points.map fun x => Real.log (m.pdf none θ x + eps)).sum else 10000) := by
  have hcut : d.cut none = (d.points, none) := by simp [Dat.cut, hw]
  have hlen : (d.points.length : ℝ) ≠ 0 := by
    simpa using hd
  have hl : ∀ o, (⟨.unbinnedNLL, [m], [d], [none], [], {}⟩ : Loss Θ X).lossFunc θ (some o) =
      .ok (-(d.points.map fun x => Real.log (m.pdf none θ x + eps)).sum + d.points.length * o) := by
    intro o
    simp only [Loss.lossFunc, List.zip_cons_cons, List.zip_nil_right, List.map_cons, List.map_nil, List.sum_cons, List.sum_nil,
      constraintSum, add_zero]
    rw [nllTerm_shift_eq]
    simp only [nllTerm, nllCalc, nllShift, hcut]
  have hl0 : (⟨.unbinnedNLL, [m], [d], [none], [], {}⟩ : Loss Θ X).lossFunc θ none =
      .ok (-(d.points.map fun x => Real.log (m.pdf none θ x + eps)).sum) := by
    simp only [Loss.lossFunc, List.zip_cons_cons, List.zip_nil_right, List.map_cons, List.map_nil, List.sum_cons, List.sum_nil,
      constraintSum, add_zero, nllTerm, nllCalc, hcut]
  unfold Loss.value Loss.precompile Loss.findOffset
  simp only [Bool.false_eq_true, if_false, hl, except_bind_ok, except_pure, Loss.checkChi2]
  cases full with
  | true => simp only [if_true, hl0]
  | false =>
    simp only [Bool.false_eq_true, if_false, hl, List.map_cons, List.map_nil, List.sum_cons, List.sum_nil, hn, add_zero, mul_zero]
    congr 1
    field_simp
    ring

/-- C242 is violated: made before the first evaluation, the losses find each its own constant: both begin at 10000, whatever the models are. -/
theorem comparable_fresh_violated :
    (∀ (m m' : Mod Θ X) (d : Dat X) (θ θ' : Θ), d.weights = none → d.approxNevents = d.points.length → d.points ≠ [] →
      ∃ l l' s', Loss.make .unbinnedNLL [m] [d] none [] {} = .ok l ∧ l.createNew {} { model := some [m'] } = .ok (l', s') ∧
        (l.value {} θ false).2 = .ok 10000 ∧ (l'.value s' θ' false).2 = .ok 10000) ∧
    ∃ (m m' : Mod Unit Unit) (d : Dat Unit) (v v' : ℝ), d.weights = none ∧ d.approxNevents = d.points.length ∧ d.points ≠ [] ∧
      (⟨.unbinnedNLL, [m], [d], [none], [], {}⟩ : Loss Unit Unit).HasValue () v ∧
      (⟨.unbinnedNLL, [m'], [d], [none], [], {}⟩ : Loss Unit Unit).HasValue () v' ∧ v ≠ v' := by
  constructor
  · intro m m' d θ θ' hw hn hd
    refine ⟨⟨.unbinnedNLL, [m], [d], [none], [], {}⟩, ⟨.unbinnedNLL, [m'], [d], [none], [], {}⟩, {}, by simp [Loss.make, fillRanges], ?_, ?_, ?_⟩
    · simp [Loss.createNew, refused, Loss.make, fillRanges, Kind.binned]
    · simpa using first_value m d hw hn hd θ false
    · simpa using first_value m' d hw hn hd θ' false
  · refine ⟨⟨fun _ _ _ => 1, none, fun _ => [], none⟩, ⟨fun _ _ _ => 2, none, fun _ => [], none⟩, ⟨[()], none, 1, 1, [], none⟩,
      -Real.log (1 + eps), -Real.log (2 + eps), rfl, by simp, by simp, ?_, ?_, ?_⟩
    · intro s
      simp only [Loss.value, Loss.precompile, Loss.findOffset, Loss.lossFunc, Loss.checkChi2]
      rcases s with ⟨_ | _, _ | o⟩ <;> simp [nllTerm, nllCalc, Dat.cut, constraintSum]
    · intro s
      simp only [Loss.value, Loss.precompile, Loss.findOffset, Loss.lossFunc, Loss.checkChi2]
      rcases s with ⟨_ | _, _ | o⟩ <;> simp [nllTerm, nllCalc, Dat.cut, constraintSum]
    · have := Real.log_lt_log (by linarith [eps_pos]) (show 1 + eps < 2 + eps by linarith)
      intro h
      linarith

/-- C242 is violated: a binned loss subtracts the constant for every parameter of a constraint: a constraint without any effect on the full
value shifts the value. -/
theorem comparable_constraints_violated : ∃ (l l' : Loss Unit Unit) (s s' : State) (v w : ℝ),
    Loss.make .binnedNLL [exMod] [exDat] none [] { subtr := .given 1 } = .ok l ∧ s = (l.value {} () false).1 ∧
    l.createNew s { constraints := some [⟨fun _ => 0, 1⟩] } = .ok (l', s') ∧
    (l.value s () false).2 = .ok v ∧ (l'.value s' () false).2 = .ok (v - 1) ∧ (l.value s () true).2 = .ok w ∧ (l'.value s' () true).2 = .ok w := by
  have hsum : ∀ o, sumTerms ([(exMod, exDat)].map fun p => poissonTerm false p.1 p.2 () o) = .ok (poissonBin (1 * 6) 6 o) := by
    intro o
    simp [sumTerms_cons, sumTerms_nil, poissonTerm, expected, exMod, exDat]
  have hv : ∀ (cs : List (Constr Unit)) (o : Option ℝ), (⟨.binnedNLL, [exMod], [exDat], [none], cs, { subtr := .given 1 }⟩ : Loss Unit Unit).lossFunc () o =
      .ok (poissonBin (1 * 6) 6 o + constraintSum .binnedNLL cs () o) := by
    intro cs o
    simp only [Loss.lossFunc, List.zip_cons_cons, List.zip_nil_right, hsum, except_bind_ok, except_pure]
  refine ⟨⟨.binnedNLL, [exMod], [exDat], [none], [], { subtr := .given 1 }⟩,
    ⟨.binnedNLL, [exMod], [exDat], [none], [⟨fun _ => 0, 1⟩], { subtr := .given 1 }⟩, ⟨true, some 1⟩, ⟨false, some 1⟩,
    poissonBin (1 * 6) 6 (some 1), poissonBin (1 * 6) 6 none, by simp [Loss.make, fillRanges], ?_, ?_, ?_, ?_, ?_, ?_⟩
  · simp [Loss.value, Loss.precompile, Loss.findOffset, Loss.checkChi2]
  · simp [Loss.createNew, refused, Loss.make, fillRanges, Kind.binned]
  · simp [Loss.value, Loss.precompile, hv, constraintSum]
  · simp [Loss.value, Loss.precompile, Loss.findOffset, Loss.checkChi2, hv, constraintSum]
    ring
  · simp [Loss.value, Loss.precompile, hv, constraintSum]
  · simp [Loss.value, Loss.precompile, Loss.findOffset, Loss.checkChi2, hv, constraintSum]

/-- The hypotheses of `comparable_partial` are met. -/
example : ∃ (l : Loss Unit Unit) (v₀ : ℝ), l.Paired ∧ l.BinsMatch ∧ (l.value {} () false).2 = .ok v₀ := by
  refine ⟨⟨.unbinnedNLL, [exMod], [⟨[()], none, 1, 1, [], none⟩], [none], [], {}⟩, 10000, ⟨rfl, rfl⟩, fun h => by simp [Kind.binned] at h, ?_⟩
  simpa using first_value exMod (⟨[()], none, 1, 1, [], none⟩ : Dat Unit) rfl (by simp) (by simp) () false

/-! ## C243: functions as losses -/

/-- C243, the part that holds: of a function without the attribute `errordef`, with numerical derivatives and not compiled, `create_new` gives
what was given and the rest of the loss. Missing: functions with the attribute and derivatives that were given, see
`simple_errordef_violated` and `simple_gradient_violated`. -/
theorem simple_create_new_partial {F P : Type} (func : SFunc F) (params : List P) (e : ℚ) (hf : func.errordef = none) (func' : Option (SFunc F))
    (params' : Option (List P)) (e' : Option ℚ) (hf' : (func'.getD func).errordef = none) :
    ∃ l, Simple.make func params (some e) .num .num false = .ok l ∧
      l.createNew func' params' e' = .ok ⟨func'.getD func, params'.getD params, e'.getD e, .num, .num, false⟩ := by
  refine ⟨⟨func, params, e, .num, .num, false⟩, by simp [Simple.make, hf], ?_⟩
  simp only [Simple.createNew, Simple.make]
  rw [hf']

example : ∃ l, Simple.make (⟨"chi2", none⟩ : SFunc String) ["mu"] (some 1) .num .num false = .ok l ∧
    l.createNew none none (some (1 / 2)) = .ok ⟨⟨"chi2", none⟩, ["mu"], 1 / 2, .num, .num, false⟩ :=
  simple_create_new_partial ⟨"chi2", none⟩ ["mu"] 1 rfl none none (some (1 / 2)) rfl

/-- C243 is violated: of a function that has the attribute `errordef`, no loss can be made by `create_new`, whatever is given, unless another
function is given: its own error definition is handed on. -/
theorem simple_errordef_violated {F P : Type} (f : F) (e : ℚ) (params : List P) (g h : Deriv F) (jit : Bool) (params' : Option (List P)) (e' : Option ℚ) :
    ∃ l, Simple.make ⟨f, some e⟩ params none g h jit = .ok l ∧ l.createNew none params' e' = .error .valueError :=
  ⟨⟨⟨f, some e⟩, params, e, g, h, jit⟩, rfl, rfl⟩

/-- C243 is violated: gradient, hessian and compilation are lost. -/
theorem simple_gradient_violated {F P : Type} (f : F) (e : ℚ) (params : List P) (g h : Deriv F) (jit : Bool) :
    ∃ l l', Simple.make ⟨f, none⟩ params (some e) g h jit = .ok l ∧ l.createNew none none none = .ok l' ∧
      l.gradient = g ∧ l'.gradient = .num ∧ l.hessian = h ∧ l'.hessian = .num ∧ l.jit = jit ∧ l'.jit = false :=
  ⟨⟨⟨f, none⟩, params, e, g, h, jit⟩, ⟨⟨f, none⟩, params, e, .num, .num, false⟩, rfl, rfl, rfl, rfl, rfl, rfl, rfl, rfl⟩

/-! ## C244: the options of a loss belong to it -/

/-- Dictionaries of losses are their own. -/
structure Heap.Ok (h : Heap) : Prop where
  user : ∀ r ∈ h.user, r < h.dicts.length
  losses : ∀ l ∈ h.losses, l.2 < h.dicts.length
  own : (h.losses.map (·.2)).Nodup
  apart : ∀ l ∈ h.losses, l.2 ∉ h.user
  distinct : h.user.Nodup

theorem Heap.Ok.addDict {h : Heap} (ok : h.Ok) (d : OptDict) : ({ h with dicts := h.dicts ++ [d] } : Heap).Ok :=
  ⟨fun r hr => by have := ok.user r hr; simp; omega, fun l hl => by have := ok.losses l hl; simp; omega, ok.own, ok.apart, ok.distinct⟩

theorem Heap.Ok.make {h : Heap} (ok : h.Ok) (ng kh : Bool) (k : Kind) (r : ℕ) : (h.make ng kh k r).Ok := by
  have hlen : (h.make ng kh k r).dicts.length = h.dicts.length + 1 := by unfold Heap.make; split <;> simp
  have hl : (h.make ng kh k r).losses = h.losses ++ [(k, h.dicts.length)] := rfl
  have hu : (h.make ng kh k r).user = h.user := rfl
  refine ⟨fun q hq => by rw [hlen]; rw [hu] at hq; have := ok.user q hq; omega, fun l hl' => ?_, ?_, fun l hl' => ?_, ok.distinct⟩
  · rw [hl] at hl'
    rcases List.mem_append.1 hl' with h1 | h1
    · have := ok.losses l h1; omega
    · rw [List.mem_singleton.1 h1, hlen]; simp
  · rw [hl, List.map_append, List.nodup_append]
    refine ⟨ok.own, by simp, fun a ha b hb => ?_⟩
    obtain ⟨l, hl', rfl⟩ := List.mem_map.1 ha
    have := ok.losses l hl'
    simp only [List.map_cons, List.map_nil, List.mem_singleton] at hb
    omega
  · rw [hl] at hl'
    rw [hu]
    rcases List.mem_append.1 hl' with h1 | h1
    · exact ok.apart l h1
    · rw [List.mem_singleton.1 h1]
      intro hc
      have := ok.user _ hc
      simp at this

theorem Heap.Ok.step {h : Heap} (ok : h.Ok) (ng kh : Bool) (op : HOp) : (h.step ng kh op).Ok := by
  cases op with
  | write d =>
    refine ⟨fun r hr => ?_, fun l hl => ?_, ok.own, fun l hl => ?_, ?_⟩
    · rcases List.mem_append.1 hr with h1 | h1
      · have := ok.user r h1; simp [Heap.step]; omega
      · rw [List.mem_singleton.1 h1]; simp [Heap.step]
    · have := ok.losses l hl; simp [Heap.step]; omega
    · intro hc
      rcases List.mem_append.1 hc with h1 | h1
      · exact ok.apart l hl h1
      · have := ok.losses l hl
        have := List.mem_singleton.1 h1
        omega
    · change (h.user ++ [_]).Nodup
      rw [List.nodup_append]
      refine ⟨ok.distinct, by simp, fun a ha b hb => ?_⟩
      have := ok.user a ha
      have := List.mem_singleton.1 hb
      omega
  | make k g =>
    cases g with
    | none => exact (ok.addDict []).make ng kh k _
    | some j =>
      unfold Heap.step; dsimp only
      split
      · exact ok
      · exact ok.make ng kh k _
  | createNew i g =>
    cases g with
    | none =>
      unfold Heap.step; dsimp only
      split
      · exact ok
      · exact (ok.addDict _).make ng kh _ _
    | some j =>
      unfold Heap.step; dsimp only
      split
      · exact ok.make ng kh _ _
      · exact ok
  | evaluate i c =>
    unfold Heap.step; dsimp only
    split
    · exact ok
    · exact ⟨fun r hr => by simpa using ok.user r hr, fun l hl => by simpa using ok.losses l hl, ok.own, ok.apart, ok.distinct⟩

theorem Heap.run_ok (ng kh : Bool) (ops : List HOp) : (Heap.run ng kh ops).Ok := by
  unfold Heap.run
  have : ∀ (h : Heap), h.Ok → (ops.foldl (Heap.step ng kh) h).Ok := by
    induction ops with
    | nil => exact fun h ok => ok
    | cons op ops ih => exact fun h ok => ih _ (ok.step ng kh op)
  exact this _ ⟨by simp, by simp, by simp, by simp, by simp⟩

/-- Only the dictionary given changes, if the loss is a chi2. -/
theorem Heap.make_at (ng kh : Bool) (h : Heap) (k : Kind) (r q : ℕ) (hq : q < h.dicts.length) (hne : k.chi2 = true → q ≠ r) :
    (h.make ng kh k r).at q = h.at q := by
  unfold Heap.make Heap.at
  dsimp only
  by_cases hk : k.chi2 = true
  · rw [if_pos hk, List.getD_append _ _ _ _ (by simpa using hq), List.getD_eq_getElem?_getD, List.getElem?_set_ne (hne hk).symm,
      ← List.getD_eq_getElem?_getD]
  · rw [if_neg hk, List.getD_append _ _ _ _ hq]

theorem nodup_index {α : Type} {l : List α} (h : l.Nodup) {i j : ℕ} {a : α} (hi : l[i]? = some a) (hj : l[j]? = some a) : i = j := by
  obtain ⟨h1, h2⟩ := List.getElem?_eq_some_iff.1 hi
  obtain ⟨h3, h4⟩ := List.getElem?_eq_some_iff.1 hj
  exact (List.Nodup.getElem_inj_iff h).1 (h2.trans h4.symm)

/-- C244: whatever is done, the options of a loss change only when that loss is evaluated: neither other losses, made from it or from the same
dictionary, nor the dictionary it was made with share them. -/
theorem own_options (ng kh : Bool) (ops : List HOp) (op : HOp) (i : ℕ) (d : OptDict) (hd : (Heap.run ng kh ops).options i = some d)
    (hop : ∀ c, op ≠ .evaluate i c) : ((Heap.run ng kh ops).step ng kh op).options i = some d := by
  have ok := Heap.run_ok ng kh ops
  generalize Heap.run ng kh ops = h at ok hd
  unfold Heap.options at hd
  obtain ⟨l, hl, rfl⟩ := Option.map_eq_some_iff.1 hd
  have hlt := ok.losses l (List.mem_of_getElem? hl)
  have hkeep : ∀ (h' : Heap) (k : Kind) (r : ℕ), h'.losses = h.losses → h.dicts <+: h'.dicts → r ≠ l.2 →
      (h'.make ng kh k r).options i = some (h.at l.2) := by
    intro h' k r hls hpre hr
    have h1 : (h'.make ng kh k r).losses[i]? = some l := by
      change (h'.losses ++ [_])[i]? = some l
      rw [hls]
      exact List.getElem?_append_left (by
        rcases Nat.lt_or_ge i h.losses.length with h2 | h2
        · exact h2
        · rw [List.getElem?_eq_none h2] at hl; cases hl) ▸ hl
    have h2 : l.2 < h'.dicts.length := Nat.lt_of_lt_of_le hlt hpre.length_le
    unfold Heap.options
    rw [h1, Option.map_some, Heap.make_at ng kh h' k r l.2 h2 fun _ => hr.symm]
    obtain ⟨t, ht⟩ := hpre
    unfold Heap.at
    rw [← ht, List.getD_append _ _ _ _ hlt]
  have hapart : ∀ r ∈ h.user, r ≠ l.2 := fun r hr hc => ok.apart l (List.mem_of_getElem? hl) (hc ▸ hr)
  have hself : h.options i = some (h.at l.2) := by unfold Heap.options; rw [hl]; rfl
  cases op with
  | write w =>
    unfold Heap.options Heap.step
    dsimp only
    rw [hl, Option.map_some]
    unfold Heap.at
    dsimp only
    rw [List.getD_append _ _ _ _ hlt]
  | make k g =>
    cases g with
    | none => exact hkeep _ k _ rfl (List.prefix_append _ _) (by omega)
    | some j =>
      unfold Heap.step
      dsimp only
      rcases hj : h.user[j]? with _ | r
      · exact hself
      · exact hkeep h k r rfl (List.prefix_refl _) (hapart r (List.mem_of_getElem? hj))
  | createNew j g =>
    cases g with
    | none =>
      unfold Heap.step
      dsimp only
      rcases hj : h.losses[j]? with _ | q
      · exact hself
      · exact hkeep _ q.1 _ rfl (List.prefix_append _ _) (by omega)
    | some m =>
      unfold Heap.step
      dsimp only
      rcases hj : h.losses[j]? with _ | q
      · exact hself
      · rcases hm : h.user[m]? with _ | r
        · exact hself
        · exact hkeep h q.1 r rfl (List.prefix_refl _) (hapart r (List.mem_of_getElem? hm))
  | evaluate j c =>
    unfold Heap.step
    dsimp only
    rcases hj : h.losses[j]? with _ | q
    · exact hself
    · have hji : j ≠ i := fun hc => hop c (by rw [hc])
      have hne : q.2 ≠ l.2 := fun hc => hji (nodup_index ok.own (a := q.2) (by simp [hj]) (by simp [hl, hc]))
      unfold Heap.options
      dsimp only
      rw [hl, Option.map_some]
      unfold Heap.at
      dsimp only
      rw [List.getD_eq_getElem?_getD, List.getElem?_set_ne hne, ← List.getD_eq_getElem?_getD]

/-- Two losses from one dictionary; the first is evaluated: the options of the second are as they were. -/
example : ((Heap.run false false [.write [], .make .unbinnedNLL (some 0), .make .binnedNLL (some 0)]).options 1).isSome = true ∧
    ((Heap.run false false [.write [], .make .unbinnedNLL (some 0), .make .binnedNLL (some 0)]).step false false (.evaluate 0 3)).options 0 ≠
      (Heap.run false false [.write [], .make .unbinnedNLL (some 0), .make .binnedNLL (some 0)]).options 0 := by decide +kernel

/-! ## C245: the dictionaries of the user -/

/-- C245, the part that holds: no operation changes a dictionary the user wrote, except making a chi2 with it. Missing: chi2 losses, see
`user_options_violated`. -/
theorem user_options_partial (ng kh : Bool) (ops : List HOp) (op : HOp) (k : ℕ) (d : OptDict) (hd : (Heap.run ng kh ops).written k = some d)
    (hmake : ∀ kind, op = .make kind (some k) → kind.chi2 = false)
    (hnew : ∀ i l, op = .createNew i (some k) → (Heap.run ng kh ops).losses[i]? = some l → l.1.chi2 = false) :
    ((Heap.run ng kh ops).step ng kh op).written k = some d := by
  have ok := Heap.run_ok ng kh ops
  generalize Heap.run ng kh ops = h at ok hd hnew
  unfold Heap.written at hd
  obtain ⟨r, hr, rfl⟩ := Option.map_eq_some_iff.1 hd
  have hlt := ok.user r (List.mem_of_getElem? hr)
  have hself : h.written k = some (h.at r) := by unfold Heap.written; rw [hr]; rfl
  have hkeep : ∀ (h' : Heap) (kd : Kind) (q : ℕ), h'.user = h.user → h.dicts <+: h'.dicts → (kd.chi2 = true → r ≠ q) →
      (h'.make ng kh kd q).written k = some (h.at r) := by
    intro h' kd q hus hpre hq
    have h1 : (h'.make ng kh kd q).user[k]? = some r := by
      change h'.user[k]? = some r
      rw [hus, hr]
    have h2 : r < h'.dicts.length := Nat.lt_of_lt_of_le hlt hpre.length_le
    unfold Heap.written
    rw [h1, Option.map_some, Heap.make_at ng kh h' kd q r h2 hq]
    obtain ⟨t, ht⟩ := hpre
    unfold Heap.at
    rw [← ht, List.getD_append _ _ _ _ hlt]
  cases op with
  | write w =>
    unfold Heap.written Heap.step
    dsimp only
    have : (h.user ++ [h.dicts.length])[k]? = some r := by
      rw [List.getElem?_append_left (List.getElem?_eq_some_iff.1 hr).1, hr]
    rw [this, Option.map_some]
    unfold Heap.at
    dsimp only
    rw [List.getD_append _ _ _ _ hlt]
  | make kd g =>
    cases g with
    | none => exact hkeep _ kd _ rfl (List.prefix_append _ _) fun _ => by omega
    | some j =>
      unfold Heap.step
      dsimp only
      rcases hj : h.user[j]? with _ | q
      · exact hself
      · refine hkeep h kd q rfl (List.prefix_refl _) fun hk hrq => ?_
        have : j = k := nodup_index ok.distinct hj (hrq ▸ hr)
        rw [hmake kd (by rw [this])] at hk
        cases hk
  | createNew i g =>
    cases g with
    | none =>
      unfold Heap.step
      dsimp only
      rcases hj : h.losses[i]? with _ | q
      · exact hself
      · exact hkeep _ q.1 _ rfl (List.prefix_append _ _) fun _ => by omega
    | some m =>
      unfold Heap.step
      dsimp only
      rcases hj : h.losses[i]? with _ | q
      · exact hself
      · rcases hm : h.user[m]? with _ | t
        · exact hself
        · refine hkeep h q.1 t rfl (List.prefix_refl _) fun hk hrq => ?_
          have : m = k := nodup_index ok.distinct hm (hrq ▸ hr)
          rw [hnew i q (by rw [this]) hj] at hk
          cases hk
  | evaluate j c =>
    unfold Heap.step
    dsimp only
    rcases hj : h.losses[j]? with _ | q
    · exact hself
    · have hne : q.2 ≠ r := fun hc => ok.apart q (List.mem_of_getElem? hj) (hc ▸ List.mem_of_getElem? hr)
      unfold Heap.written
      dsimp only
      rw [hr, Option.map_some]
      unfold Heap.at
      dsimp only
      rw [List.getD_eq_getElem?_getD, List.getElem?_set_ne hne, ← List.getD_eq_getElem?_getD]

/-- C245 is violated: a chi2 completes the dictionary it is given; a loss made with the same dictionary afterwards has these options. -/
theorem user_options_violated (ng kh : Bool) : ∃ ops : List HOp, (Heap.run ng kh ops).written 0 = some [] ∧
    ((Heap.run ng kh ops).step ng kh (.make .binnedChi2 (some 0))).written 0 = some [("empty", .text "ignore"), ("errors", .text "data")] :=
  ⟨[.write []], rfl, rfl⟩

/-- A likelihood made with a dictionary, evaluated; another made from it: the dictionary is left, the constant is the new loss's too. -/
example : (Heap.run false false [.write [("numhess", .bool false)], .make .unbinnedNLL (some 0), .evaluate 0 3, .createNew 0 none, .evaluate 1 5]).written 0 =
      some [("numhess", .bool false)] ∧
    ((Heap.run false false [.write [("numhess", .bool false)], .make .unbinnedNLL (some 0), .evaluate 0 3, .createNew 0 none, .evaluate 1 5]).options 1).bind
      (dictGet · "subtr_const_value") = some (.num 3) := by decide +kernel

/-! ## C246: what a loss made from another has -/

/-- What an option is if it is not given. -/
def defaultOf (ng kh : Bool) (kind : Kind) (key : String) : Option OptVal :=
  if key = "numhess" then some (.bool true)
  else if key = "numgrad" then some (.bool ng)
  else if key = "subtr_const" then some (.bool true)
  else if key = "sumtype" then some (if kh then .text "kahan" else .none)
  else if kind.chi2 = true ∧ key = "empty" then some (.text "ignore")
  else if kind.chi2 = true ∧ key = "errors" then some (.text "data")
  else none

/-- An option given, or its default. -/
def orDefault (given default : Option OptVal) : Option OptVal :=
  if given = none ∨ given = some .none then default.or given else given

/-- What a loss is made from: its class and the options given. -/
def Heap.source (h : Heap) : HOp → Option (Kind × OptDict)
  | .make kind none => some (kind, [])
  | .make kind (some k) => (h.written k).map fun d => (kind, d)
  | .createNew i none => (h.losses[i]?).map fun l => (l.1, h.at l.2)
  | .createNew i (some k) => (h.losses[i]?).bind fun l => (h.written k).map fun d => (l.1, d)
  | _ => none

theorem get_setDefault (d : OptDict) (key k : String) (v : OptVal) :
    dictGet (setDefault d key v) k = if k = key then orDefault (dictGet d k) (some v) else dictGet d k := by
  unfold setDefault orDefault
  by_cases hk : k = key
  · subst hk
    rw [if_pos rfl]
    split <;> rename_i h
    · rw [dictGet_set_self, h]; simp
    · rw [dictGet_set_self, h]; simp
    · rename_i w hw
      rw [h]
      have : w ≠ .none := fun hc => hw hc
      simp [this]
  · rw [if_neg hk]
    split
    · exact dictGet_set_ne _ _ _ _ hk
    · exact dictGet_set_ne _ _ _ _ hk
    · rfl

theorem get_completed (ng kh : Bool) (kind : Kind) (d : OptDict) (key : String) :
    dictGet (cleanOptions ng kh (if kind.chi2 then chi2Options d else d)) key = orDefault (dictGet d key) (defaultOf ng kh kind key) := by
  unfold cleanOptions defaultOf
  simp only [get_setDefault]
  have hself : ∀ o : Option OptVal, orDefault o none = o := by
    intro o; unfold orDefault; split <;> simp
  by_cases h1 : key = "numhess"
  · subst h1; cases kind.chi2 <;> simp [chi2Options, get_setDefault]
  by_cases h2 : key = "numgrad"
  · subst h2; cases kind.chi2 <;> simp [chi2Options, get_setDefault]
  by_cases h3 : key = "subtr_const"
  · subst h3; cases kind.chi2 <;> simp [chi2Options, get_setDefault]
  by_cases h4 : key = "sumtype"
  · subst h4; cases kind.chi2 <;> simp [chi2Options, get_setDefault]
  simp only [h1, h2, h3, h4, if_false]
  cases kind.chi2 with
  | false => simp [hself]
  | true =>
    by_cases h5 : key = "empty"
    · subst h5; simp [chi2Options, get_setDefault]
    by_cases h6 : key = "errors"
    · subst h6; simp [chi2Options, get_setDefault]
    simp [chi2Options, get_setDefault, h5, h6, hself]

theorem Heap.make_options (ng kh : Bool) (h : Heap) (kind : Kind) (r : ℕ) (hr : r < h.dicts.length) :
    (h.make ng kh kind r).options h.losses.length = some (cleanOptions ng kh (if kind.chi2 then chi2Options (h.at r) else h.at r)) := by
  unfold Heap.options Heap.make Heap.at
  dsimp only
  rw [List.getElem?_append_right (Nat.le_refl _)]
  simp only [Nat.sub_self, List.getElem?_cons_zero, Option.map_some, Option.some.injEq]
  by_cases hk : kind.chi2 = true
  · simp only [hk, if_true]
    rw [List.getD_eq_getElem?_getD, List.getElem?_append_right (by simp)]
    simp [List.getD_eq_getElem?_getD, hr]
  · simp only [hk, Bool.false_eq_true, if_false]
    rw [List.getD_eq_getElem?_getD, List.getElem?_append_right (Nat.le_refl _)]
    simp

/-- C246: the options of a new loss are those given, or those of the loss it is made from, in particular the constant that was found; what is
not given, or is `None`, has its default. -/
theorem options_of_new (ng kh : Bool) (ops : List HOp) (op : HOp) (kind : Kind) (d : OptDict) (hs : (Heap.run ng kh ops).source op = some (kind, d)) :
    ∃ d', ((Heap.run ng kh ops).step ng kh op).options (Heap.run ng kh ops).losses.length = some d' ∧
      ∀ key, dictGet d' key = orDefault (dictGet d key) (defaultOf ng kh kind key) := by
  have ok := Heap.run_ok ng kh ops
  generalize Heap.run ng kh ops = h at ok hs
  have hfresh : ∀ (q : OptDict), ({ h with dicts := h.dicts ++ [q] } : Heap).at h.dicts.length = q := by
    intro q
    unfold Heap.at
    rw [List.getD_eq_getElem?_getD, List.getElem?_append_right (Nat.le_refl _)]
    simp
  suffices hh : ((h.step ng kh op).options h.losses.length) = some (cleanOptions ng kh (if kind.chi2 then chi2Options d else d)) from
    ⟨_, hh, get_completed ng kh kind d⟩
  cases op with
  | write w => cases hs
  | evaluate i c => cases hs
  | make kd g =>
    cases g with
    | none =>
      simp only [Heap.source, Option.some.injEq, Prod.mk.injEq] at hs
      obtain ⟨rfl, rfl⟩ := hs
      have := Heap.make_options ng kh { h with dicts := h.dicts ++ [[]] } kd h.dicts.length (by simp)
      rw [hfresh] at this
      exact this
    | some k =>
      simp only [Heap.source, Heap.written, Option.map_map, Option.map_eq_some_iff, Function.comp_apply, Prod.mk.injEq] at hs
      obtain ⟨r, hr, rfl, rfl⟩ := hs
      unfold Heap.step
      dsimp only
      rw [hr]
      exact Heap.make_options ng kh h kd r (ok.user r (List.mem_of_getElem? hr))
  | createNew i g =>
    cases g with
    | none =>
      simp only [Heap.source, Option.map_eq_some_iff, Prod.mk.injEq] at hs
      obtain ⟨l, hl, rfl, rfl⟩ := hs
      unfold Heap.step
      dsimp only
      rw [hl]
      have := Heap.make_options ng kh { h with dicts := h.dicts ++ [h.at l.2] } l.1 h.dicts.length (by simp)
      rw [hfresh] at this
      exact this
    | some k =>
      simp only [Heap.source, Heap.written, Option.map_map, Option.bind_eq_some_iff, Option.map_eq_some_iff, Function.comp_apply, Prod.mk.injEq] at hs
      obtain ⟨l, hl, r, hr, rfl, rfl⟩ := hs
      unfold Heap.step
      dsimp only
      rw [hl, hr]
      exact Heap.make_options ng kh h l.1 r (ok.user r (List.mem_of_getElem? hr))

example : (Heap.run false true [.write [("errors", .text "expected")]]).source (.make .binnedChi2 (some 0)) =
    some (.binnedChi2, [("errors", .text "expected")]) ∧
    orDefault (dictGet [("errors", OptVal.text "expected")] "empty") (defaultOf false true .binnedChi2 "empty") = some (.text "ignore") := by decide +kernel

/-! ## C247: which converter is used -/

section Converters

variable {F L : Type}

/-- A converter that takes a function. -/
def Converter.takes (f : F) (c : Converter F L) : Bool :=
  match c.convert f with
  | .no => false
  | _ => true

theorem fromAny_head (cs : List (Converter F L)) (f : F) :
    fromAny cs f = match cs.filter (·.takes f) with
      | [] => .raises .runtimeError
      | c :: _ => c.convert f := by
  induction cs with
  | nil => rfl
  | cons c cs ih =>
    unfold fromAny
    rcases hc : c.convert f with l | _ | _ | e <;> simp [Converter.takes, hc, ih]

/-- The order of the registered converters. -/
theorem registered (regs : List (Converter F L)) :
    (regs.foldl register []).Pairwise (fun a b => b.priority ≤ a.priority) ∧
      ∀ p, (regs.foldl register []).filter (fun c => decide (c.priority = p)) = regs.filter fun c => decide (c.priority = p) := by
  have hstep : ∀ (cs : List (Converter F L)) (c : Converter F L),
      (register cs c).Pairwise (fun a b => b.priority ≤ a.priority) ∧
        ∀ p, (register cs c).filter (fun x => decide (x.priority = p)) = (cs ++ [c]).filter fun x => decide (x.priority = p) := by
    intro cs c
    have htr : ∀ a b e : Converter F L, decide (b.priority ≤ a.priority) = true → decide (e.priority ≤ b.priority) = true →
        decide (e.priority ≤ a.priority) = true := by
      intro a b e h1 h2; simp only [decide_eq_true_eq] at *; omega
    have htot : ∀ a b : Converter F L, (decide (b.priority ≤ a.priority) || decide (a.priority ≤ b.priority)) = true := by
      intro a b; simp only [Bool.or_eq_true, decide_eq_true_eq]; omega
    constructor
    · have := List.pairwise_mergeSort htr htot (cs ++ [c])
      exact this.imp (by intro a b h; simpa using h)
    · intro p
      have hsub : List.Sublist ((cs ++ [c]).filter fun x => decide (x.priority = p)) (register cs c) := by
        refine List.sublist_mergeSort htr htot ?_ List.filter_sublist
        rw [List.pairwise_iff_forall_sublist]
        intro a b hab
        have ha := List.of_mem_filter (hab.subset (by simp : a ∈ [a, b]))
        have hb := List.of_mem_filter (hab.subset (by simp : b ∈ [a, b]))
        simp only [decide_eq_true_eq] at ha hb ⊢
        omega
      have h2 := hsub.filter fun x => decide (x.priority = p)
      rw [List.filter_filter] at h2
      simp only [Bool.and_self] at h2
      have hlen : ((cs ++ [c]).filter fun x => decide (x.priority = p)).length = ((register cs c).filter fun x => decide (x.priority = p)).length :=
        ((List.mergeSort_perm (cs ++ [c]) _).filter _).length_eq.symm
      exact (h2.eq_of_length hlen).symm
  induction regs using List.reverseRecOn with
  | nil => exact ⟨List.Pairwise.nil, fun _ => rfl⟩
  | append_singleton regs c ih =>
    rw [List.foldl_append]
    refine ⟨(hstep _ c).1, fun p => ?_⟩
    rw [List.foldl_cons, List.foldl_nil, (hstep _ c).2 p, List.filter_append, List.filter_append, ih.2 p]

/-- C247: of the registered converters that take a function, that of the highest priority is used, and of several with this priority the one
registered first. -/
theorem converter_of_highest_priority (before after : List (Converter F L)) (c : Converter F L) (f : F) (hc : c.convert f ≠ .no)
    (hb : ∀ x ∈ before, x.convert f ≠ .no → x.priority < c.priority) (ha : ∀ x ∈ after, x.convert f ≠ .no → x.priority ≤ c.priority) :
    fromAny ((before ++ c :: after).foldl register []) f = c.convert f := by
  have htakes : ∀ x : Converter F L, x.takes f = true ↔ x.convert f ≠ .no := by
    intro x
    unfold Converter.takes
    split <;> simp_all
  obtain ⟨hsort, hfil⟩ := registered (before ++ c :: after)
  generalize (before ++ c :: after).foldl register [] = cs at hsort hfil
  rw [fromAny_head]
  have hmem : ∀ x, x ∈ cs → x ∈ before ++ c :: after := by
    intro x hx
    have : x ∈ cs.filter fun y => decide (y.priority = x.priority) := List.mem_filter.2 ⟨hx, by simp⟩
    rw [hfil] at this
    exact (List.mem_filter.1 this).1
  have hcin : c ∈ cs.filter (·.takes f) := by
    have : c ∈ (before ++ c :: after).filter fun y => decide (y.priority = c.priority) := List.mem_filter.2 ⟨by simp, by simp⟩
    rw [← hfil] at this
    exact List.mem_filter.2 ⟨(List.mem_filter.1 this).1, (htakes c).2 hc⟩
  have hsort' := hsort.filter (·.takes f)
  rcases hA : cs.filter (·.takes f) with _ | ⟨h, t⟩
  · rw [hA] at hcin; cases hcin
  · rw [hA] at hcin hsort'
    have hge : c.priority ≤ h.priority := by
      rcases List.mem_cons.1 hcin with rfl | hm
      · exact Int.le_refl _
      · exact (List.pairwise_cons.1 hsort').1 c hm
    have hhA : h ∈ cs.filter (·.takes f) := by rw [hA]; simp
    obtain ⟨hh1, hh2⟩ := List.mem_filter.1 hhA
    have hle : h.priority ≤ c.priority := by
      rcases List.mem_append.1 (hmem h hh1) with h1 | h1
      · exact Int.le_of_lt (hb h h1 ((htakes h).1 hh2))
      · rcases List.mem_cons.1 h1 with rfl | h1
        · exact Int.le_refl _
        · exact ha h h1 ((htakes h).1 hh2)
    have hp : h.priority = c.priority := Int.le_antisymm hle hge
    have hcomm : (cs.filter (·.takes f)).filter (fun y => decide (y.priority = c.priority)) =
        ((before ++ c :: after).filter fun y => decide (y.priority = c.priority)).filter (·.takes f) := by
      rw [← hfil, List.filter_filter, List.filter_filter]
      congr 1
      funext x
      exact Bool.and_comm _ _
    rw [hA, List.filter_cons_of_pos (by simpa using hp), List.filter_append, List.filter_append] at hcomm
    have hnil : (before.filter fun y => decide (y.priority = c.priority)).filter (·.takes f) = [] := by
      rw [List.filter_eq_nil_iff]
      intro x hx ht
      obtain ⟨h1, h2⟩ := List.mem_filter.1 hx
      have := hb x h1 ((htakes x).1 ht)
      simp only [decide_eq_true_eq] at h2
      omega
    rw [hnil, List.nil_append, List.filter_cons_of_pos (by simp), List.filter_cons_of_pos ((htakes c).2 hc)] at hcomm
    rw [hA, (List.cons.inj hcomm).1]

/-- C247: if none takes it, this is an error. -/
theorem no_converter (regs : List (Converter F L)) (f : F) (h : ∀ x ∈ regs, x.convert f = .no) :
    fromAny (regs.foldl register []) f = .raises .runtimeError := by
  rw [fromAny_head]
  have hnil : (regs.foldl register []).filter (·.takes f) = [] := by
    rw [List.filter_eq_nil_iff]
    intro x hx
    have : x ∈ (regs.foldl register []).filter fun y => decide (y.priority = x.priority) := List.mem_filter.2 ⟨hx, by simp⟩
    rw [(registered regs).2] at this
    simp [Converter.takes, h x (List.mem_filter.1 this).1]
  rw [hnil]

/-- Three converters; two take the function, with the same priority: the first. -/
example : fromAny ([⟨fun _ => .no, 5⟩, ⟨fun _ => .loss "a", 1⟩, ⟨fun _ => .loss "b", 1⟩, ⟨fun _ => .loss "c", -1⟩].foldl register []) () = Made.loss "a" :=
  converter_of_highest_priority [⟨fun _ => .no, 5⟩] [⟨fun _ => .loss "b", 1⟩, ⟨fun _ => .loss "c", -1⟩] ⟨fun _ => .loss "a", 1⟩ () (by simp) (by simp) (by simp)

/-! ## C248: a function becomes a loss or is refused -/

/-- C248, the part that holds: if every converter gives a loss, refuses or raises, so does the conversion. Missing: the converter that zfit
itself registers, see `default_converter_violated`. -/
theorem from_any_partial (regs : List (Converter F L)) (f : F) (h : ∀ x ∈ regs, x.convert f ≠ .nothing) :
    (∃ l, fromAny (regs.foldl register []) f = .loss l) ∨ ∃ e, fromAny (regs.foldl register []) f = .raises e := by
  rw [fromAny_head]
  rcases hA : (regs.foldl register []).filter (·.takes f) with _ | ⟨c, t⟩
  · rw [hA]
    exact Or.inr ⟨_, rfl⟩
  · have hc : c ∈ (regs.foldl register []).filter (·.takes f) := by rw [hA]; simp
    obtain ⟨h1, h2⟩ := List.mem_filter.1 hc
    have : c ∈ (regs.foldl register []).filter fun y => decide (y.priority = c.priority) := List.mem_filter.2 ⟨h1, by simp⟩
    rw [(registered regs).2] at this
    have h3 := h c (List.mem_filter.1 this).1
    rw [hA]
    dsimp only
    rcases hr : c.convert f with l | _ | _ | e
    · exact Or.inl ⟨l, rfl⟩
    · simp [Converter.takes, hr] at h2
    · exact absurd hr h3
    · exact Or.inr ⟨e, rfl⟩

/-- C248 is violated: if making a `SimpleLoss` fails with a `TypeError` about anything but an unexpected keyword argument, `None` is returned as
the loss. -/
theorem default_converter_violated (f : F) :
    fromAny ([(⟨fun _ => defaultConverter (.error (.typeError, false)), -1⟩ : Converter F L)].foldl register []) f = .nothing := by
  have := converter_of_highest_priority [] [] (⟨fun _ => defaultConverter (.error (.typeError, false)), -1⟩ : Converter F L) f
    (by simp [defaultConverter]) (by simp) (by simp)
  simpa [defaultConverter] using this

example : (∃ l, fromAny ([⟨fun _ => .loss "a", 1⟩].foldl register []) () = Made.loss l) ∨
    ∃ e, fromAny ([⟨fun _ => .loss "a", 1⟩].foldl register []) () = Made.raises e := from_any_partial _ _ (by simp)

end Converters

end Zfit.Loss
