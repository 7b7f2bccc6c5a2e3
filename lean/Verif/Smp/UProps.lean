import Verif.Smp.Props
import Verif.Data.Props

/-!
# Unbinned samplers: the limits, updates with data sets, and whether a sampler can be resampled
-/

namespace Zfit.Smp

open Zfit Zfit.Bin

/-! ## C162: the events of a sampler are inside its limits -/

theorem cut_inside {s : Dat.DSpace} {t t' : Dat.Tensor} {w w' : Option (List Rat)} (h : Dat.cutTensor s t w = .ok (t', w')) :
    (∀ row ∈ t'.rows, s.insideRow row = true) ∧ t'.cols = t.cols ∧ w'.isSome = w.isSome := by
  simp only [Dat.cutTensor, bind_eq_ok] at h
  obtain ⟨_, _, h⟩ := h
  split at h
  · rename_i hl
    simp only [except_pure, Except.ok.injEq, Prod.mk.injEq] at h
    refine ⟨?_, by rw [h.1], by rw [h.2]⟩
    intro row _
    simp [Dat.DSpace.insideRow, hl]
  · split at h
    · simp [bind, Except.bind, throw, throwThe, MonadExceptOf.throw] at h
    · simp only [except_pure, Except.ok.injEq, Prod.mk.injEq] at h
      refine ⟨?_, by rw [← h.1], by rw [← h.2]; simp⟩
      intro row hrow
      rw [← h.1] at hrow
      have := Dat.maskSelect_map t.rows id s.insideRow
      simp only [List.map_id] at this
      simp only [this] at hrow
      exact (List.mem_filter.1 hrow).2

theorem update_inside (c : Dat.Sampler) (t : Dat.Tensor) (w : Option (List Rat)) (g : Bool)
    (ht : g = true → ∀ row ∈ t.rows, c.space.insideRow row = true) (hc : ∀ row ∈ c.sample.rows, c.space.insideRow row = true) :
    ∀ row ∈ (c.update t w g).1.sample.rows, c.space.insideRow row = true := by
  unfold Dat.Sampler.update
  split
  · exact hc
  · rename_i t' w' hp
    have key : ∀ row ∈ t'.rows, c.space.insideRow row = true := by
      unfold Dat.Sampler.prepare at hp
      split at hp
      · cases hp
      · split at hp
        · rename_i hg
          simp only [Except.ok.injEq, Prod.mk.injEq] at hp
          rw [← hp.1]
          exact ht hg
        · exact (cut_inside hp).1
    dsimp only
    split <;> exact key

/-- The array given to `update_data` as a table. -/
def Drawn.rows : Drawn → List (List Rat)
  | .rank1 l => l.map ([·])
  | .rank2 t => t.rows

/-- The operation keeps to the limits: what is given or drawn without a check is inside. -/
def UOp.Keeps (s : Dat.DSpace) : UOp → Prop
  | .update (.array d) _ g => g = true → ∀ row ∈ d.rows, s.insideRow row = true
  | .update (.data _) _ g => g = false
  | .resample _ _ _ draw => ∀ n ps o, draw n ps = .ok o → ∀ row ∈ o.sample.rows, s.insideRow row = true

theorem uupdate_inside (E : UEnv) (st : USampler) (s : UNew) (w : Option (List Rat)) (g : Bool) (h : st.Inside)
    (hs : g = true → ∃ d, s = .array d ∧ ∀ row ∈ d.rows, st.core.space.insideRow row = true) : (st.updateData E s w g).1.Inside := by
  have main : ∀ (t : Dat.Tensor) (w : Option (List Rat)), (g = true → ∀ row ∈ t.rows, st.core.space.insideRow row = true) →
      (match st.core.update t w g with
        | (c, none) => (({ st with core := c, hash := uHash E c }, none) : USampler × Option Err)
        | (c, some e) => ({ st with core := c }, some e)).1.Inside := by
    intro t w ht
    have h1 := update_inside st.core t w g ht h
    have h2 := update_space st.core t w g
    split <;> rename_i heq <;> rw [heq] at h1 h2 <;> (unfold USampler.Inside; dsimp only at h1 h2 ⊢; rw [h2]; exact h1)
  unfold USampler.updateData
  dsimp only
  split
  · exact h
  · rename_i t w' hp
    apply main
    intro hg
    obtain ⟨d, rfl, hd⟩ := hs hg
    cases d with
    | rank1 l =>
      simp only [Except.ok.injEq, Prod.mk.injEq] at hp
      rw [← hp.1]
      exact hd
    | rank2 t2 =>
      simp only [Except.ok.injEq, Prod.mk.injEq] at hp
      rw [← hp.1]
      exact hd

theorem ustep_inside (E : UEnv) (st : USampler) (o : UOp) (h : st.Inside) (ho : o.Keeps st.core.space) : (st.step E o).1.Inside := by
  cases o with
  | update s w g =>
    apply uupdate_inside E st s w g h
    intro hg
    cases s with
    | array d => exact ⟨d, rfl, ho hg⟩
    | data d => rw [show g = false from ho] at hg; cases hg
  | resample p pv n draw =>
    show (st.resample E p pv n draw).1.Inside
    unfold USampler.resample
    split
    · exact h
    · split
      · exact h
      · rename_i o heq
        split
        · exact h
        · exact uupdate_inside E st _ _ _ h (fun _ => ⟨o.sample, rfl, ho _ _ o heq⟩)

/-- The first sample always is inside: it is cut when the sampler is created, whatever was guaranteed. -/
theorem create_inside (E : UEnv) (space : Dat.DSpace) (n : Nat) (p : PVals) (g : Bool) (draw : UDraw) (st : USampler)
    (h : USampler.fromSampler E space n p g draw = .ok st) : st.Inside := by
  simp only [USampler.fromSampler, bind_eq_ok] at h
  obtain ⟨ps, h1, o, -, _, -, t, -, r, -, h⟩ := h
  unfold USampler.init at h
  split at h
  · cases h
  · split at h
    · rename_i st' heq
      simp only [Except.ok.injEq] at h
      subst h
      unfold USampler.updateData at heq
      dsimp only at heq
      split at heq
      · rename_i c hc
        simp only [Prod.mk.injEq, and_true] at heq
        subst heq
        unfold Dat.Sampler.update at hc
        split at hc
        · simp at hc
        · rename_i t' w' hp
          unfold Dat.Sampler.prepare at hp
          split at hp
          · cases hp
          · simp only [Bool.false_eq_true, if_false] at hp
            have key := (cut_inside hp).1
            unfold USampler.Inside
            dsimp only at hc ⊢
            split at hc <;> simp only [Prod.mk.injEq, and_true, reduceCtorEq, and_false] at hc
            · subst hc; exact key
            · subst hc; exact key
      · simp at heq
    · cases h

/-- C162 if the sampling function and what is guaranteed by the user keep to the limits: all events always are inside the limits. Missing
from the full claim: the cases of `inside_violated`. -/
theorem inside_partial (E : UEnv) (space : Dat.DSpace) (n : Nat) (p : PVals) (g : Bool) (draw : UDraw) (st : USampler)
    (h : USampler.fromSampler E space n p g draw = .ok st) (ops : List UOp) (hops : ∀ o ∈ ops, o.Keeps space) :
    (st.run E ops).Inside ∧ (st.run E ops).core.space = space := by
  have hsp := (ufrom_params h).1
  have hrun : ∀ (ops : List UOp) (st : USampler), st.core.space = space → (∀ o ∈ ops, o.Keeps space) → st.Inside → (st.run E ops).Inside := by
    intro ops
    induction ops with
    | nil => intro st _ _ h; exact h
    | cons o ops ih =>
      intro st hs ho hin
      refine ih (st.step E o).1 ((ustep_params E st o).2.2.1.trans hs) (fun o' h' => ho o' (List.mem_cons_of_mem _ h')) ?_
      apply ustep_inside E st o hin
      rw [hs]
      exact ho o List.mem_cons_self
  exact ⟨hrun ops st hsp hops (create_inside E space n p g draw st h), by rw [(urun_params E st ops).2.2.1, hsp]⟩

/-- A hash for the examples. -/
def exUEnv : UEnv := ⟨true, fun t _ => t.rows.length⟩

/-- A sampling function that does not care about the limits, for the examples. -/
def exDraw : UDraw := fun _ _ => .ok ⟨true, .rank2 ⟨1, [[1/2], [2]]⟩, none⟩

/-- C162 is violated: the first sample is cut to the limits, the next one is not, although the user did not guarantee anything
(`guarantee_limits=False`). -/
theorem inside_violated :
    USampler.fromSampler exUEnv ⟨["x"], some [[(0, 1)]]⟩ 2 .none false exDraw =
      .ok ⟨⟨⟨["x"], some [[(0, 1)]]⟩, ⟨1, [[1/2]]⟩, none, 1⟩, [], 2, true, some 1⟩ ∧
    (USampler.resample exUEnv ⟨⟨⟨["x"], some [[(0, 1)]]⟩, ⟨1, [[1/2]]⟩, none, 1⟩, [], 2, true, some 1⟩ .none .none none exDraw).1 =
      ⟨⟨⟨["x"], some [[(0, 1)]]⟩, ⟨1, [[1/2], [2]]⟩, none, 2⟩, [], 2, true, some 2⟩ ∧
    ¬ (⟨⟨⟨["x"], some [[(0, 1)]]⟩, ⟨1, [[1/2], [2]]⟩, none, 2⟩, [], 2, true, some 2⟩ : USampler).Inside := by
  refine ⟨by decide +kernel, by decide +kernel, ?_⟩
  intro h
  have := h [2] (by simp)
  revert this
  decide +kernel

/-! ## C163: data sets given to a sampler -/

theorem cutTensor_table {s : Dat.DSpace} (hs : s.Proper) (pts : List (String → Rat)) (w : Option (List Rat)) (hw : Dat.Weighted pts w) :
    Dat.cutTensor s ⟨s.obs.length, Dat.table s.obs pts⟩ w =
      .ok (⟨s.obs.length, Dat.table s.obs (pts.filter s.contains)⟩, Dat.keptWeights s.contains pts w) := by
  have hin : ∀ p ∈ pts, s.insideRow (s.obs.map p) = s.contains p := fun p _ => Dat.insideRow_point hs.2.2 p
  rw [← Dat.filter_table hin, ← Dat.keptWeights_table hin]
  unfold Dat.cutTensor
  rw [Dat.checkWeights_ok hw (Dat.table_length _ _), except_bind_ok]
  have hl : ∀ l, w = some l → l.length = (Dat.table s.obs pts).length := by
    intro l h; rw [Dat.table_length]; exact hw l h
  cases hls : s.lims with
  | none =>
    have hp : ∀ r, s.insideRow r = true := by intro r; simp [Dat.DSpace.insideRow, hls]
    rw [List.filter_eq_self.2 (fun r _ => hp r)]
    simp only [hp, except_pure]
    cases w with
    | none => simp
    | some l => simp [List.map_snd_zip (l₁ := Dat.table s.obs pts) (l₂ := l) (by rw [hl l rfl])]
  | some ls =>
    simp only [ne_eq, not_true_eq_false, if_false, except_pure]
    have := Dat.maskSelect_map (Dat.table s.obs pts) id s.insideRow
    simp only [List.map_id] at this
    simp only [this, except_bind_ok, Except.ok.injEq, Prod.mk.injEq, true_and]
    cases w with
    | none => rfl
    | some l => simp [Dat.maskSelect_zip (Dat.table s.obs pts) l s.insideRow (hl l rfl)]

theorem keptWeights_twice (f g : (String → Rat) → Bool) (pts : List (String → Rat)) (l : List Rat) (hl : l.length = pts.length) :
    Dat.keptWeights g (pts.filter f) (Dat.keptWeights f pts (some l)) = Dat.keptWeights (fun p => f p && g p) pts (some l) := by
  simp only [Dat.keptWeights, Option.map_some, Option.some.injEq]
  induction pts generalizing l with
  | nil => simp
  | cons p pts ih =>
    cases l with
    | nil => simp at hl
    | cons x l =>
      simp only [List.length_cons, Nat.add_right_cancel_iff] at hl
      have := ih l hl
      simp only [List.zip_cons_cons, List.filter_cons]
      by_cases hp : f p = true
      · by_cases hq : g p = true
        · simp [hp, hq, this]
        · simp [hp, hq, this]
      · simp [hp, this]

/-- C163: a data set with (at least) the observables of the sampler, in any order, that has weights exactly if the sampler has: the sampler then
contains those events of the data set that are inside its own limits, each observable at its own place, with their weights. -/
theorem update_with_data (E : UEnv) (st : USampler) (hst : st.core.space.Proper) (s : Dat.DSpace) (hs : s.Proper) (pts : List (String → Rat))
    (w : Option (List Rat)) (hw : Dat.Weighted pts w) (hsub : ∀ o ∈ st.core.space.obs, o ∈ s.obs) (d : Dat.Data)
    (hd : Dat.Data.fromTensor s ⟨s.obs.length, Dat.table s.obs pts⟩ w false = .ok d) (hws : w.isSome = st.core.weights.isSome) (g : Bool) :
    ∃ st', st.updateData E (.data d) none g = (st', none) ∧ st'.core.space = st.core.space ∧
      st'.core.sample.rows = Dat.table st.core.space.obs (pts.filter (fun p => s.contains p && st.core.space.contains p)) ∧
      st'.core.weights = Dat.keptWeights (fun p => s.contains p && st.core.space.contains p) pts w := by
  obtain ⟨d', h1, h2, h3⟩ := Dat.view_in_new_space s hs pts w hw st.core.space hst hsub d hd
  set sp := st.core.space with hsp
  set kept := (pts.filter s.contains).filter sp.contains with hkept
  set kw := Dat.keptWeights sp.contains (pts.filter s.contains) (Dat.keptWeights s.contains pts w) with hkw
  have hkeptw : Dat.Weighted kept kw := Dat.keptWeights_weighted _ (Dat.keptWeights_weighted _ hw)
  obtain ⟨d'', h4⟩ := Dat.Shows.read h3 none (by simp)
  rw [h2] at h4
  simp only [Option.getD_none] at h4
  have hkeep : kept = pts.filter (fun p => s.contains p && sp.contains p) := by
    rw [hkept, List.filter_filter]
    congr 1
    funext p
    rw [Bool.and_comm]
  have hkw' : kw = Dat.keptWeights (fun p => s.contains p && sp.contains p) pts w := by
    rw [hkw]
    cases w with
    | none => rfl
    | some l =>
      exact keptWeights_twice s.contains sp.contains pts l (hw l rfl)
  have hprep : uFromData sp d = .ok (⟨sp.obs.length, Dat.table sp.obs kept⟩, kw) := by
    simp only [uFromData, h1, except_bind_ok, h4, h3.1, except_pure]
  have hcut : Dat.cutTensor sp ⟨sp.obs.length, Dat.table sp.obs kept⟩ kw = .ok (⟨sp.obs.length, Dat.table sp.obs kept⟩, kw) := by
    rw [cutTensor_table hst kept kw hkeptw]
    have hall : ∀ p ∈ kept, sp.contains p = true := fun p hp => (List.mem_filter.1 hp).2
    rw [List.filter_eq_self.2 hall, Dat.keptWeights_all hkeptw hall]
  have hpre : st.core.prepare ⟨sp.obs.length, Dat.table sp.obs kept⟩ kw g = .ok (⟨sp.obs.length, Dat.table sp.obs kept⟩, kw) := by
    unfold Dat.Sampler.prepare
    rw [if_neg (by simp [hsp])]
    cases g with
    | true => rfl
    | false => simpa using hcut
  have hsome : kw.isSome = st.core.weights.isSome := by
    rw [← hws, hkw']
    cases w <;> rfl
  have hup : st.core.update ⟨sp.obs.length, Dat.table sp.obs kept⟩ kw g =
      (⟨sp, ⟨sp.obs.length, Dat.table sp.obs kept⟩, kw, (Dat.table sp.obs kept).length⟩, none) := by
    unfold Dat.Sampler.update
    rw [hpre]
    dsimp only
    clear_value kw sp
    cases kw with
    | none =>
      cases hw2 : st.core.weights with
      | none => dsimp only; rw [hsp]
      | some _ => rw [hw2] at hsome; cases hsome
    | some u =>
      cases hw2 : st.core.weights with
      | some _ => dsimp only; rw [hsp]
      | none => rw [hw2] at hsome; cases hsome
  refine ⟨⟨⟨sp, ⟨sp.obs.length, Dat.table sp.obs kept⟩, kw, (Dat.table sp.obs kept).length⟩, st.params, st.n, st.guarantee,
    uHash E ⟨sp, ⟨sp.obs.length, Dat.table sp.obs kept⟩, kw, (Dat.table sp.obs kept).length⟩⟩, ?_, rfl, ?_, hkw'⟩
  · unfold USampler.updateData
    dsimp only
    rw [← hsp, hprep]
    dsimp only
    rw [hup]
  · dsimp only
    rw [hkeep]

/-- C163: an array with one column per observable of the sampler, or a plain list of numbers for a sampler with one
observable, with weights exactly if the sampler has: the sampler then contains those of the events that are inside its
limits, with their weights. -/
theorem update_with_array (E : UEnv) (st : USampler) (hst : st.core.space.Proper) (pts : List (String → Rat))
    (w : Option (List Rat)) (hw : Dat.Weighted pts w) (hws : w.isSome = st.core.weights.isSome) (d : Drawn)
    (hd : d = .rank2 ⟨st.core.space.obs.length, Dat.table st.core.space.obs pts⟩ ∨
      ∃ o, st.core.space.obs = [o] ∧ d = .rank1 (pts.map (fun p => p o))) :
    ∃ st', st.updateData E (.array d) w false = (st', none) ∧ st'.core.space = st.core.space ∧
      st'.core.sample.rows = Dat.table st.core.space.obs (pts.filter st.core.space.contains) ∧
      st'.core.weights = Dat.keptWeights st.core.space.contains pts w := by
  set sp := st.core.space with hsp
  set kw := Dat.keptWeights sp.contains pts w with hkw
  have hsome : kw.isSome = st.core.weights.isSome := by
    rw [← hws, hkw]
    cases w <;> rfl
  have hpre : st.core.prepare ⟨sp.obs.length, Dat.table sp.obs pts⟩ w false =
      .ok (⟨sp.obs.length, Dat.table sp.obs (pts.filter sp.contains)⟩, kw) := by
    unfold Dat.Sampler.prepare
    rw [if_neg (by simp [hsp])]
    have := cutTensor_table hst pts w hw
    simpa using this
  have hup : ∃ c, st.core.update ⟨sp.obs.length, Dat.table sp.obs pts⟩ w false = (c, none) ∧ c.space = sp ∧
      c.sample.rows = Dat.table sp.obs (pts.filter sp.contains) ∧ c.weights = kw := by
    unfold Dat.Sampler.update
    rw [hpre]
    dsimp only
    clear_value kw sp
    cases kw with
    | none =>
      cases hw2 : st.core.weights with
      | none => exact ⟨_, rfl, hsp.symm, rfl, rfl⟩
      | some _ => rw [hw2] at hsome; cases hsome
    | some u =>
      cases hw2 : st.core.weights with
      | some _ => exact ⟨_, rfl, hsp.symm, rfl, rfl⟩
      | none => rw [hw2] at hsome; cases hsome
  obtain ⟨c, hc, h1, h2, h3⟩ := hup
  have hall : st.updateData E (.array d) w false = ({ st with core := c, hash := uHash E c }, none) := by
    rcases hd with rfl | ⟨o, ho, rfl⟩
    · unfold USampler.updateData
      dsimp only
      rw [hc]
    · have ht : (⟨sp.obs.length, Dat.table sp.obs pts⟩ : Dat.Tensor) = ⟨1, (pts.map (fun p => p o)).map ([·])⟩ := by
        rw [ho]
        simp [Dat.table]
      rw [ht] at hc
      unfold USampler.updateData
      dsimp only
      rw [hc]
  exact ⟨_, hall, h1, h2, h3⟩

/-- A list of numbers for a sampler with one observable. -/
example : ((⟨⟨⟨["x"], some [[(0, 5)]]⟩, ⟨1, []⟩, some [], 0⟩, [], 1, true, none⟩ : USampler).updateData exUEnv (.array (.rank1 [1, 7, 2]))
      (some [10, 20, 30]) false) =
    (⟨⟨⟨["x"], some [[(0, 5)]]⟩, ⟨1, [[1], [2]]⟩, some [10, 30], 2⟩, [], 1, true, some 2⟩, none) := by
  decide +kernel

/-- C163, error branch: a data set together with weights is refused, nothing changes. -/
theorem update_data_and_weights (E : UEnv) (st : USampler) (d : Dat.Data) (w : List Rat) (g : Bool) :
    st.updateData E (.data d) (some w) g = (st, some .valueError) := rfl

/-- Non-vacuity: the columns of the data set are in the other order, and there is one more; one event is outside the limits of the sampler. -/
example : ∃ d, Dat.Data.fromTensor ⟨["z", "y", "x"], none⟩ ⟨3, [[7, 1, 2], [8, 9, 2]]⟩ (some [10, 20]) false = .ok d ∧
    ((⟨⟨⟨["x", "y"], some [[(0, 5), (0, 5)]]⟩, ⟨2, []⟩, some [], 0⟩, [], 1, true, none⟩ : USampler).updateData exUEnv (.data d) none false) =
      (⟨⟨⟨["x", "y"], some [[(0, 5), (0, 5)]]⟩, ⟨2, [[2, 1]]⟩, some [10], 1⟩, [], 1, true, some 1⟩, none) := by
  refine ⟨⟨⟨["z", "y", "x"], none⟩, .tensor ⟨3, [[7, 1, 2], [8, 9, 2]]⟩ [0, 1, 2], some [10, 20]⟩, ?_, ?_⟩
  · decide +kernel
  · decide +kernel

/-! ## C164: a sampler that could be created can be resampled -/

/-- C164 for binned samplers: if the sampling function gives the same shapes as for the first sample, variances included, `resample` succeeds and
the sampler contains exactly what was drawn. -/
theorem resample_possible_binned (E : Env) (space : BSpace) (n₀ : Nat) (p₀ : PVals) (draw : BDraw) (st : BSampler)
    (h : BSampler.fromSampler E space n₀ p₀ draw = .ok st)
    (hdraw : ∀ n ps n' ps' a v, draw n ps = .ok (a, v) → ∃ a' v', draw n' ps' = .ok (a', v') ∧ a'.shape = a.shape ∧ v'.isSome = v.isSome ∧
      ∀ u, v' = some u → u.shape = a'.shape)
    (p : PVals) (hp : p ≠ .other) (n : Option Nat) :
    ∃ st' k ps a v, st.resample E p .none n draw = (st', none, some (k, ps)) ∧ draw k ps = .ok (a, v) ∧ st'.values = a ∧ st'.variances = v := by
  have hE : E.hashing = true := by
    by_contra hE
    exact create_hashing_violated E (by simpa using hE) space n₀ p₀ draw st h
  have hsp := (bfrom_params h).1
  have hfit := (shape_binned_partial E space n₀ p₀ draw st h [] (by simp)).1
  change st.Fits at hfit
  obtain ⟨ps, hps⟩ : ∃ ps, resampleArgs st.n st.params p .none n = .ok (n.getD st.n, ps) := by
    cases p with
    | none => exact ⟨_, rfl⟩
    | mapping l => exact ⟨_, rfl⟩
    | result l => exact ⟨_, rfl⟩
    | other => exact absurd rfl hp
  -- the first sample
  have hfirst : ∃ n' ps' a v, draw n' ps' = .ok (a, v) ∧ v.isSome = st.variances.isSome ∧ a.shape.length = st.space.axes.length := by
    simp only [BSampler.fromSampler, bind_eq_ok] at h
    obtain ⟨ps0, h1, r, h2, _, -, hh, h3, h⟩ := h
    obtain ⟨rfl, hf⟩ := make_fits h3
    refine ⟨n₀, ps0, r.1, r.2, h2, ?_, ?_⟩
    · unfold BSampler.init at h
      split at h
      · rename_i st' heq
        simp only [Except.ok.injEq] at h
        subst h
        have := update_binned_partial E hE ⟨space, r.1, r.2, ps0, n₀, 0⟩ (.array r.1) r.2 rfl
          (by
            intro u hu
            have h5 : u.shape = bins space := hf.2 u hu
            have h6 : (newContents (.array r.1) r.2).1.shape = bins space := hf.1
            rw [h5, h6])
        rcases this with ⟨e, he⟩ | ⟨st2, he, _, hv2, _⟩
        · dsimp only at heq
          rw [he] at heq
          simp at heq
        · dsimp only at heq
          rw [he] at heq
          simp only [Prod.mk.injEq, and_true] at heq
          rw [← heq, hv2]
          rfl
      · cases h
    · rw [hsp, hf.1]
      simp [bins]
  obtain ⟨n', ps', a0, v0, hd0, hv0, hlen⟩ := hfirst
  obtain ⟨a, v, hd, hsh, hvs, hvv⟩ := hdraw n' ps' (n.getD st.n) ps a0 v0 hd0
  have hup := update_binned_partial E hE st (.array a) v (by show v.isSome = _; rw [hvs, hv0])
    (by intro u hu; rw [show u.shape = a.shape from hvv u hu]; rfl)
  have hok : assignOk st.space a = true := by simp [assignOk, hsh, hlen]
  rcases hup with ⟨e, he⟩ | ⟨st', he, hval, hvar, _⟩
  · exfalso
    have hne : (st.updateData E (.array a) v).2 = none := by
      unfold BSampler.updateData
      dsimp only
      rw [if_pos hok]
      unfold updateVariances
      cases v with
      | none =>
        dsimp only
        cases hs : st.variances with
        | none => dsimp only; unfold updateHash; rw [if_pos hE]
        | some _ => rw [hs] at hv0; rw [hv0] at hvs; cases hvs
      | some u =>
        dsimp only
        cases hs : st.variances with
        | some _ =>
          dsimp only
          rw [if_pos (by simp [assignOk, hvv u rfl, hsh, hlen])]
          unfold updateHash
          rw [if_pos hE]
        | none => rw [hs] at hv0; rw [hv0] at hvs; cases hvs
    rw [he] at hne
    cases hne
  · refine ⟨st', n.getD st.n, ps, a, v, ?_, hd, hval, hvar⟩
    unfold BSampler.resample
    rw [hps]
    dsimp only
    rw [hd]
    dsimp only
    rw [he]

/-- C164 for unbinned samplers whose sampling function returns tensors with `n` rows, one column for each observable, and weights exactly if the
sampler has some: `resample` succeeds and the sampler contains exactly what was drawn. Missing from the full claim: the cases of
`resample_possible_violated`. -/
theorem resample_possible_partial (E : UEnv) (space : Dat.DSpace) (n₀ : Nat) (p₀ : PVals) (g : Bool) (draw₀ : UDraw) (st : USampler)
    (h : USampler.fromSampler E space n₀ p₀ g draw₀ = .ok st) (draw : UDraw)
    (hdraw : ∀ n ps, ∃ rows w, draw n ps = .ok ⟨true, .rank2 ⟨space.obs.length, rows⟩, w⟩ ∧ rows.length = n ∧
      w.isSome = st.core.weights.isSome ∧ ∀ u, w = some u → u.length = n)
    (p : PVals) (hp : p ≠ .other) (n : Option Nat) :
    ∃ st' k ps rows w, st.resample E p .none n draw = (st', none, some (k, ps)) ∧
      draw k ps = .ok ⟨true, .rank2 ⟨space.obs.length, rows⟩, w⟩ ∧ st'.core.sample.rows = rows ∧ st'.core.weights = w := by
  obtain ⟨hsp, -, -, hg⟩ := ufrom_params h
  obtain ⟨ps, hps⟩ : ∃ ps, resampleArgs st.n st.params p .none n = .ok (n.getD st.n, ps) := by
    cases p with
    | none => exact ⟨_, rfl⟩
    | mapping l => exact ⟨_, rfl⟩
    | result l => exact ⟨_, rfl⟩
    | other => exact absurd rfl hp
  obtain ⟨rows, w, hd, hrows, hws, hwl⟩ := hdraw (n.getD st.n) ps
  have hset : setShapes (n.getD st.n) st.core.space.obs.length ⟨true, .rank2 ⟨space.obs.length, rows⟩, w⟩ = .ok () := by
    unfold setShapes
    simp only [not_true_eq_false, if_false]
    rw [if_neg (by rw [hrows, hsp]; simp)]
    rw [if_neg]
    cases w with
    | none => simp
    | some u => simp [hwl u rfl]
  have hup : st.core.update ⟨space.obs.length, rows⟩ w true =
      (⟨space, ⟨space.obs.length, rows⟩, w, rows.length⟩, none) := by
    unfold Dat.Sampler.update
    have : st.core.prepare ⟨space.obs.length, rows⟩ w true = .ok (⟨space.obs.length, rows⟩, w) := by
      unfold Dat.Sampler.prepare
      rw [hsp]
      simp
    rw [this]
    dsimp only
    cases w with
    | none =>
      cases hw2 : st.core.weights with
      | none => dsimp only; rw [hsp]
      | some _ => rw [hw2] at hws; cases hws
    | some u =>
      cases hw2 : st.core.weights with
      | some _ => dsimp only; rw [hsp]
      | none => rw [hw2] at hws; cases hws
  refine ⟨⟨⟨space, ⟨space.obs.length, rows⟩, w, rows.length⟩, st.params, st.n, st.guarantee,
    uHash E ⟨space, ⟨space.obs.length, rows⟩, w, rows.length⟩⟩, n.getD st.n, ps, rows, w, ?_, hd, rfl, rfl⟩
  unfold USampler.resample
  rw [hps]
  dsimp only
  rw [hd]
  dsimp only
  rw [hset]
  dsimp only
  unfold USampler.updateData
  dsimp only
  rw [hg, hup]

/-- C164 is violated: with functions that return NumPy arrays, a single column as a one dimensional tensor, or a number of events of their own
choice, samplers can be created; `resample` with the same function raises. -/
theorem resample_possible_violated :
    (∀ draw ∈ ([fun _ _ => .ok ⟨false, .rank2 ⟨1, [[1], [2]]⟩, none⟩, fun _ _ => .ok ⟨true, .rank1 [1, 2], none⟩,
        fun _ _ => .ok ⟨true, .rank2 ⟨1, [[1], [2], [3]]⟩, none⟩] : List UDraw),
      ∃ st e, USampler.fromSampler exUEnv ⟨["x"], none⟩ 2 .none false draw = .ok st ∧
        (st.resample exUEnv .none .none none draw).2.1 = some e) := by
  intro draw hdraw
  simp only [List.mem_cons, List.not_mem_nil, or_false] at hdraw
  rcases hdraw with rfl | rfl | rfl
  · exact ⟨⟨⟨⟨["x"], none⟩, ⟨1, [[1], [2]]⟩, none, 2⟩, [], 2, true, some 2⟩, .attributeError, by decide +kernel, by decide +kernel⟩
  · exact ⟨⟨⟨⟨["x"], none⟩, ⟨1, [[1], [2]]⟩, none, 2⟩, [], 2, true, some 2⟩, .valueError, by decide +kernel, by decide +kernel⟩
  · exact ⟨⟨⟨⟨["x"], none⟩, ⟨1, [[1], [2], [3]]⟩, none, 3⟩, [], 2, true, some 3⟩, .valueError, by decide +kernel, by decide +kernel⟩

/-- Non-vacuity of the partial theorems: `exDraw` without limits, and the binned sampler of the examples. -/
example : ∃ st, USampler.fromSampler exUEnv ⟨["x"], none⟩ 2 .none false exDraw = .ok st ∧
    (st.resample exUEnv .none .none none exDraw).2.1 = none :=
  ⟨⟨⟨⟨["x"], none⟩, ⟨1, [[1/2], [2]]⟩, none, 2⟩, [], 2, true, some 2⟩, by decide +kernel, by decide +kernel⟩

end Zfit.Smp
