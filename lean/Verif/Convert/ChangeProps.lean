import Verif.Convert.Props
import Verif.BinPdf.AtModel

/-!
# Property C312 (see /verif/properties.jsonl): the unit of an observable makes no difference to a binned fit

More generally: every observable `x` is replaced by a strictly increasing function `φ x` of itself (a unit, a logarithm), in the data, in the edges
of the bins and in the model.
-/

namespace Zfit.Convert

open Zfit Zfit.Bin Zfit.BinPdf

/-! ### Specification -/

/-- The bins with the edges in the other unit. -/
def spaceIn (φ : String → Rat → Rat) (s : BSpace) : BSpace := ⟨s.axes.map fun a => ⟨a.name, a.edges.map (φ a.name)⟩⟩

/-- The events in the other unit. -/
def dataIn (φ : String → Rat → Rat) (d : UData) : UData := { d with rows := d.rows.map fun r => List.zipWith φ d.obs r }

/-- A box in the other unit. -/
def boxIn (φ : String → Rat → Rat) (obs : List String) (b : Box) : Box := List.zipWith (fun o p => (φ o p.1, φ o p.2)) obs b

/-- Binned data in the other unit: the same contents in the other bins. -/
def holderIn (φ : String → Rat → Rat) (h : Holder) : Holder := { h with space := spaceIn φ h.space }

/-- The edges of the bins. -/
def edgesOf (s : BSpace) : List (List Rat) := s.axes.map (·.edges)

/-! ### Data -/

theorem findBin_in {f : Rat → Rat} (hf : StrictMono f) (incl : Bool) (edges : List Rat) (x : Rat) :
    findBin incl (edges.map f) (f x) = findBin incl edges x := by
  cases edges with
  | nil => rfl
  | cons e0 rest =>
    have h1 : (rest.map f).getLastD (f e0) = f (rest.getLastD e0) := by
      cases rest with
      | nil => rfl
      | cons a l =>
        simp [List.getLastD_eq_getLast?, List.getLast?_cons, List.getLast?_map]
    have h2 : ((rest.map f).takeWhile (fun e => decide (e ≤ f x))).length = (rest.takeWhile (fun e => decide (e ≤ x))).length := by
      rw [List.takeWhile_map, List.length_map]
      congr 2
      funext e
      simp [hf.le_iff_le]
    simp only [List.map_cons, findBin, hf.lt_iff_lt, h1, hf.injective.eq_iff, List.length_map, h2]

theorem rowBin_in {φ : String → Rat → Rat} (hφ : ∀ o, StrictMono (φ o)) (incl : Bool) (axes : List Axis) (row : List Rat) :
    rowBin incl (axes.map fun a => a.edges.map (φ a.name)) (List.zipWith φ (axes.map (·.name)) row) = rowBin incl (axes.map (·.edges)) row := by
  unfold rowBin
  induction axes generalizing row with
  | nil => rfl
  | cons a axes ih =>
    cases row with
    | nil => rfl
    | cons x row => simp only [List.map_cons, List.zipWith_cons_cons, List.zip_cons_cons, List.mapM_cons, findBin_in (hφ a.name), ih]

theorem make_in (φ : String → Rat → Rat) (s : BSpace) (v : NDArr) (w : Option NDArr) :
    Holder.make (spaceIn φ s) v w = (Holder.make s v w).map (holderIn φ) := by
  have h1 : (spaceIn φ s).axes.length = s.axes.length := by simp [spaceIn]
  have h2 : (spaceIn φ s).axes.map (fun a => a.edges.length) = s.axes.map (fun a => a.edges.length) := by simp [spaceIn, Function.comp_def]
  unfold Holder.make
  simp only [h1, h2]
  cases w with
  | none => simp only [bind, Except.bind]; split_ifs <;> rfl
  | some w => simp only [bind, Except.bind]; split_ifs <;> rfl

/-- C312, data: binning the events in the other unit gives the same contents and variances in the other bins, or the same error. -/
theorem binned_data_unit {φ : String → Rat → Rat} (hφ : ∀ o, StrictMono (φ o)) (incl : Bool) (d : UData) (s : BSpace) (ho : d.obs = s.obs) :
    unbinnedToBinned incl (dataIn φ d) (spaceIn φ s) = (unbinnedToBinned incl d s).map (holderIn φ) := by
  have hlen : (spaceIn φ s).axes.length = s.axes.length := by simp [spaceIn]
  have hedges : (spaceIn φ s).axes.map (·.edges) = s.axes.map fun a => a.edges.map (φ a.name) := by simp [spaceIn, Function.comp_def]
  have hw : (dataIn φ d).weights.getD ((dataIn φ d).rows.map fun _ => 1) = d.weights.getD (d.rows.map fun _ => 1) := by
    simp [dataIn, Function.comp_def]
  have hfill : ∀ (rows : List (List Rat)) (w : List Rat) acc,
      ((rows.map fun r => List.zipWith φ d.obs r).zip w).foldl (fillRow incl (s.axes.map fun a => a.edges.map (φ a.name))) acc =
        (rows.zip w).foldl (fillRow incl (s.axes.map (·.edges))) acc := by
    intro rows
    induction rows with
    | nil => intro w acc; rfl
    | cons r rows ih =>
      intro w acc
      cases w with
      | nil => rfl
      | cons x w =>
        simp only [List.map_cons, List.zip_cons_cons, List.foldl_cons]
        rw [show fillRow incl (s.axes.map fun a => a.edges.map (φ a.name)) acc (List.zipWith φ d.obs r, x) =
          fillRow incl (s.axes.map (·.edges)) acc (r, x) by unfold fillRow; simp only [ho, BSpace.obs, rowBin_in hφ]]
        exact ih w _
  have hhist : toHist incl (s.axes.map fun a => a.edges.map (φ a.name)) ((dataIn φ d).rows.zip (d.weights.getD (d.rows.map fun _ => 1))) =
      toHist incl (s.axes.map (·.edges)) (d.rows.zip (d.weights.getD (d.rows.map fun _ => 1))) := by
    unfold toHist
    simp only [dataIn, hfill, List.map_map, Function.comp_def, List.length_map]
  unfold unbinnedToBinned
  simp only [hlen, hedges, hw, hhist, make_in]
  rw [show (dataIn φ d).obs = d.obs from rfl]
  split <;> rfl

/-! ### Models -/

theorem edges_in (φ : String → Rat → Rat) (s : BSpace) : edgesOf (spaceIn φ s) = s.axes.map fun a => a.edges.map (φ a.name) := by
  simp [edgesOf, spaceIn, Function.comp_def]

theorem binBox_in (φ : String → Rat → Rat) (s : BSpace) (idx : List Nat) (h : IsBin (edgesOf s) idx) :
    binBox (edgesOf (spaceIn φ s)) idx = boxIn φ s.obs (binBox (edgesOf s) idx) := by
  rw [edges_in]
  have hb := (allIdx_forall h).2
  obtain ⟨axes⟩ := s
  unfold edgesOf BSpace.obs binBox boxIn at *
  clear h
  induction axes generalizing idx with
  | nil => rfl
  | cons a axes ih =>
    cases idx with
    | nil => simp
    | cons i idx =>
      simp only [List.map_cons, List.zip_cons_cons, List.mem_cons, forall_eq_or_imp, List.zipWith_cons_cons] at hb ⊢
      obtain ⟨h1, h2⟩ := hb
      rw [ih idx h2]
      simp [List.getD_eq_getElem?_getD, List.getElem?_eq_getElem h1, List.getElem?_eq_getElem (show i < a.edges.length by omega)]

theorem binValues_in {φ : String → Rat → Rat} {s : BSpace} {I I' : Box → Rat} (hI : ∀ b, I' (boxIn φ s.obs b) = I b) :
    binValues (edgesOf (spaceIn φ s)) I' = binValues (edgesOf s) I := by
  have hs : (edgesOf (spaceIn φ s)).map (fun e => e.length - 1) = (edgesOf s).map (fun e => e.length - 1) := by
    rw [edges_in]
    simp [edgesOf, Function.comp_def]
  unfold binValues
  rw [hs, binLimits_eq, binLimits_eq, hs, List.map_map, List.map_map]
  congr 1
  apply List.map_congr_left
  intro idx hidx
  simp only [Function.comp_apply, binBox_in φ s idx hidx, hI]

/-- C312, models: a binned PDF made of the PDF in the other unit, in the other bins, has the same relative counts and the same counts, for
corresponding norms. -/
theorem binned_pdf_unit {φ : String → Rat → Rat} {s : BSpace} {u u' : UPdf} (hI : ∀ b, u'.integral (boxIn φ s.obs b) = u.integral b)
    (hy : u'.yield = u.yield) (space norm : Box) (extended : Option Rat) (n : Option Box) :
    ∃ c, EndsA (binnedPdf u (edgesOf s) space norm extended) (.relCounts n) (.ok c) ∧
      EndsA (binnedPdf u' (edgesOf (spaceIn φ s)) (boxIn φ s.obs space) (boxIn φ s.obs norm) extended) (.relCounts (n.map (boxIn φ s.obs))) (.ok c) ∧
      ((binnedPdf u (edgesOf s) space norm extended).yield =
        (binnedPdf u' (edgesOf (spaceIn φ s)) (boxIn φ s.obs space) (boxIn φ s.obs norm) extended).yield) ∧
      ∀ y, (binnedPdf u (edgesOf s) space norm extended).yield = some y → (∀ b, n = some b → b = space) →
        ∃ c, EndsA (binnedPdf u (edgesOf s) space norm extended) (.counts n) (.ok c) ∧
          EndsA (binnedPdf u' (edgesOf (spaceIn φ s)) (boxIn φ s.obs space) (boxIn φ s.obs norm) extended) (.counts (n.map (boxIn φ s.obs))) (.ok c) := by
  have hnorm : ∀ c, overNorm u' (n.map (boxIn φ s.obs)) c = overNorm u n c := by
    intro c
    cases n with
    | none => rfl
    | some b => simp only [Option.map_some, overNorm, hI]
  have hraw : rawCounts u' (edgesOf (spaceIn φ s)) extended = rawCounts u (edgesOf s) extended := by
    unfold rawCounts
    rw [hy]
    cases u.yield with
    | none => simp only [binValues_in hI]
    | some y => exact binValues_in (I := fun b => u.integral b * y) (fun b => by rw [hI])
  refine ⟨overNorm u n (binValues (edgesOf s) u.integral), endsA_of 1 (fun m => ?_), endsA_of 1 (fun m => ?_), ?_, fun y h hn => ?_⟩
  · simp [BPdf.runA, BPdf.stepA, binnedPdf, autoNorm, callHook, suppress]
  · rw [← hnorm, ← binValues_in hI]
    cases n <;> simp [BPdf.runA, BPdf.stepA, binnedPdf, autoNorm, callHook, suppress]
  · simp only [binnedPdf, hy]
  · refine ⟨overNorm u n (rawCounts u (edgesOf s) extended), endsA_of 1 (fun m => ?_), endsA_of 1 (fun m => ?_)⟩
    · cases n with
      | none => simp [BPdf.runA, BPdf.stepA, binnedPdf, autoNorm, callHook, suppress, supportsNorm]
      | some b =>
        cases hn b rfl
        simp [BPdf.runA, BPdf.stepA, binnedPdf, autoNorm, callHook, suppress, supportsNorm]
    · rw [← hnorm, ← hraw]
      cases n with
      | none => simp [BPdf.runA, BPdf.stepA, binnedPdf, autoNorm, callHook, suppress, supportsNorm]
      | some b =>
        cases hn b rfl
        simp [BPdf.runA, BPdf.stepA, binnedPdf, autoNorm, callHook, suppress, supportsNorm]

/-! ### Losses -/

theorem obs_in (φ : String → Rat → Rat) (s : BSpace) : (spaceIn φ s).obs = s.obs := by simp [spaceIn, BSpace.obs, Function.comp_def]

theorem axis_in (φ : String → Rat → Rat) (s : BSpace) (ob : String) :
    (spaceIn φ s).axis ob = (s.axis ob).map fun a => ⟨a.name, a.edges.map (φ a.name)⟩ := by
  unfold BSpace.axis spaceIn
  simp only [List.find?_map, Function.comp_def]
  cases s.axes.find? (fun a => decide (a.name = ob)) <;> rfl

theorem mapM_map_ok {α β γ : Type} (f : α → Except Err β) (g : β → γ) (l : List α) :
    l.mapM (fun a => (f a).map g) = (l.mapM f).map (List.map g) := by
  induction l with
  | nil => rfl
  | cons a l ih =>
    simp only [List.mapM_cons, ih]
    cases f a with
    | error e => rfl
    | ok b => cases l.mapM f <;> rfl

theorem withObs_in (φ : String → Rat → Rat) (s : BSpace) (req : List String) : (spaceIn φ s).withObs req = (s.withObs req).map (spaceIn φ) := by
  unfold BSpace.withObs
  rw [obs_in]
  split
  · rfl
  · rw [show (spaceIn φ s).axis = fun ob => (s.axis ob).map fun a => ⟨a.name, a.edges.map (φ a.name)⟩ from funext (axis_in φ s), mapM_map_ok]
    cases (req.filter (· ∈ s.obs)).mapM s.axis <;> rfl

theorem holder_withObs_in (φ : String → Rat → Rat) (h : Holder) (req : List String) :
    (holderIn φ h).withObs req = (h.withObs req).map (holderIn φ) := by
  unfold Holder.withObs
  simp only [holderIn, withObs_in]
  cases h.space.withObs req with
  | error e => rfl
  | ok t =>
    simp only [Except.map, bind, Except.bind, obs_in]
    cases moveAxisObs h.space.obs t.obs h.values with
    | error e => rfl
    | ok v =>
      cases moveAxisObs? h.space.obs t.obs h.variances with
      | error e => rfl
      | ok w => exact make_in φ t v w

/-- C312, losses: with the same counts of the model, the loss for the data in the other unit is the same, or the same error. -/
theorem binned_loss_unit (φ : String → Rat → Rat) (kind : LossKind) (extended : Bool) (term : Rat → Rat → List Nat → ℝ) (own : BSpace)
    (contents : NDArr) (h : Holder) : pairLoss kind extended term (spaceIn φ own) contents (holderIn φ h) = pairLoss kind extended term own contents h := by
  have hs : XIn.sorted (spaceIn φ own) (.data (holderIn φ h)) = XIn.sorted own (.data h) := by
    simp only [XIn.sorted, obs_in, holder_withObs_in]
    cases h.withObs own.obs <;> rfl
  unfold pairLoss countsFor
  rw [hs]
  simp only [XIn.bins, obs_in, holderIn]
  rfl

/-- C312: the value of a binned loss of a binned PDF, as a function of events and bins, does not depend on the units.  `c` are the counts of the
model (relative counts for a loss that is not extended), see `binned_pdf_unit`. -/
theorem binned_fit_unit {φ : String → Rat → Rat} (hφ : ∀ o, StrictMono (φ o)) (incl : Bool) (kind : LossKind) (extended : Bool)
    (term : Rat → Rat → List Nat → ℝ) (d : UData) (s : BSpace) (ho : d.obs = s.obs) (c : Arr) :
    (do
      let h ← unbinnedToBinned incl (dataIn φ d) (spaceIn φ s)
      pairLoss kind extended term (spaceIn φ s) ⟨(edgesOf (spaceIn φ s)).map (fun e : List Rat => e.length - 1), c⟩ h) =
    (do
      let h ← unbinnedToBinned incl d s
      pairLoss kind extended term s ⟨(edgesOf s).map (fun e : List Rat => e.length - 1), c⟩ h) := by
  have hshape : (edgesOf (spaceIn φ s)).map (fun e : List Rat => e.length - 1) = (edgesOf s).map (fun e : List Rat => e.length - 1) := by
    rw [edges_in]
    simp [edgesOf, Function.comp_def]
  rw [binned_data_unit hφ incl d s ho, hshape]
  cases unbinnedToBinned incl d s with
  | error e => rfl
  | ok h => exact binned_loss_unit φ kind extended term s _ h

/-! ### An instance -/

/-- Metres to millimetres for the length, degrees Celsius to Fahrenheit for the temperature. -/
def exUnits (o : String) (x : Rat) : Rat := if o = "length" then 1000 * x else 9 / 5 * x + 32

theorem exUnits_mono (o : String) : StrictMono (exUnits o) := by
  intro a b h
  unfold exUnits
  split <;> linarith

/-- Two bins in each observable; weighted events, one of them at an edge and one outside. -/
def exBins : BSpace := ⟨[⟨"length", [0, 1, 3]⟩, ⟨"temperature", [-10, 0, 30]⟩]⟩

/-- See `exBins`. -/
def exEvents : UData := ⟨["length", "temperature"], [[1/2, 5], [1, 0], [2, -5], [4, 1]], some [1, 2, 3, 4]⟩

/-- The hypotheses of the theorems are met: by these data, and by a PDF that is flat, whose integral is the volume of the box (in the other unit
divided by the factors). -/
example : exEvents.obs = exBins.obs ∧
    (∃ h, unbinnedToBinned true exEvents exBins = .ok h ∧ h.values.get [0, 1] = 1 ∧ h.values.get [1, 1] = 2 ∧ h.values.get [1, 0] = 3) ∧
    (spaceIn exUnits exBins).axes.map (·.edges) = [[0, 1000, 3000], [14, 32, 86]] ∧
    ∀ a b c d : Rat, (boxIn exUnits exBins.obs [(a, b), (c, d)]).foldr (fun p v => (p.2 - p.1) * v) (1 / 1800) =
      [(a, b), (c, d)].foldr (fun p v => (p.2 - p.1) * v) 1 := by
  refine ⟨rfl, ⟨_, rfl, by decide +kernel, by decide +kernel, by decide +kernel⟩, by decide +kernel, fun a b c d => ?_⟩
  simp [boxIn, exBins, BSpace.obs, exUnits]
  ring

end Zfit.Convert
