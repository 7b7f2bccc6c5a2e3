import Verif.Kde.BwModel
import Verif.Kde.Props

/-!
# Property C292: which bandwidth a KDE uses (see /verif/properties.jsonl)

`rule r data weights` is the value of the rule `r` for data and weights and `grid n data` the `n` points of the grid; both are
arbitrary.
-/

namespace Zfit.Kde

open Zfit

variable {K : Type} [Field K] [LinearOrder K]

/-! ### Specification -/

/-- The documented names of each class (kde.py 670, 865-866, 1103-1104; for `KDE1DimFFT` the two global rules; `isj` for
`GaussianKDE1DimV1` is not documented but exists) and the rule each stands for. -/
def documented : KdeCls → String → Option BwRule
  | _, "silverman" => some .silverman
  | _, "scott" => some .scott
  | .gaussV1, "adaptive" => some (.adaptive .std false)
  | .gaussV1, "isj" => some .isj
  | .exact, "adaptive_geom" => some (.adaptive .geom false)
  | .exact, "adaptive_std" => some (.adaptive .std false)
  | .exact, "adaptive_zfit" => some (.adaptive .zfit false)
  | .exact, "isj" => some .isj
  | .grid, "adaptive_geom" => some (.adaptive .geom true)
  | .grid, "adaptive_zfit" => some (.adaptive .zfit true)
  | _, _ => none

/-- The number of kernels: events, or points of the grid. -/
def kernels (cls : KdeCls) (nData numGrid : ℕ) : ℕ :=
  match cls with
  | .gaussV1 | .exact => nData
  | .grid | .fft => min nData numGrid

/-- A bandwidth fits a number of kernels: a number, a parameter, an array with one entry or one per kernel. -/
def Fits (v : BwVal K) (n : ℕ) : Prop := ∀ h, v = .arr h → h.length ≤ 1 ∨ h.length = n

/-! ### The rules by name -/

theorem methods_documented (cls : KdeCls) (s : String) : dictGet (bwMethods cls) s = documented cls s := by
  unfold documented
  cases cls <;> simp only [bwMethods, dictGet] <;> split <;> simp_all [List.find?_cons] <;> (repeat' split) <;> simp_all

theorem checkGridShape_ok (v : BwVal K) (n : ℕ) : checkGridShape v n = .ok () ↔ Fits v n := by
  unfold checkGridShape Fits
  cases v with
  | arr h =>
    simp only [BwVal.arr.injEq, forall_eq']
    split
    · split
      · simp; omega
      · simp; omega
    · simp; omega
  | num => simp
  | par => simp

variable (rule : BwRule → List K → Option (List K) → Except Err (BwVal K)) (grid : ℕ → List K → List K)

/-- C292: without a bandwidth every class uses Silverman's rule. -/
theorem bw_default (cls : KdeCls) (pad : Padding K) (limits : Option (K × K)) (data : List K) (weights : Option (List K))
    (numGrid : ℕ) :
    initKde rule grid cls .none pad limits data weights numGrid =
      initKde rule grid cls (.name "silverman") pad limits data weights numGrid := by
  have hc : ∀ c d w, convertBandwidth c rule .none d w = convertBandwidth c rule (.name "silverman") d w := fun _ _ _ => rfl
  cases cls with
  | gaussV1 => rfl
  | exact =>
    simp only [initKde, BwIn.array?]
    congr 1
    funext x
    obtain ⟨d, w, a⟩ := x
    cases a with
    | none => simp only [BwIn.padded, hc]
    | some a => rfl
  | grid => rfl
  | fft => rfl

/-- What a constructor needs from the padding: `GaussianKDE1DimV1` has none. -/
def Pads (cls : KdeCls) (pad : Padding K) (limits : Option (K × K)) (data : List K) (weights : Option (List K)) (data' : List K)
    (weights' : Option (List K)) : Prop :=
  if cls = .gaussV1 then data' = data ∧ weights' = weights
  else padreflect pad limits data weights (none : Option (List K)) = .ok (data', weights', none)

omit [LinearOrder K] in
theorem convert_name (cls : KdeCls) (s : String) (data : List K) (weights : Option (List K)) (r : BwRule)
    (hs : documented cls s = some r) (v : BwVal K) (hv : rule r data weights = .ok v) :
    convertBandwidth cls rule (.name s) data weights =
      .ok (v, if s ∈ dummyNames then .num (-999999) else v) := by
  simp only [convertBandwidth, methods_documented, hs, hv, except_bind_ok, BwIn.arrayLike, Bool.false_or, decide_eq_true_eq]

/-- C292: a documented name means its rule, applied to the data and weights *after* the padding; the value is used for the
kernels. -/
theorem bw_by_name (hgrid : ∀ n d, (grid n d).length = n) (cls : KdeCls) (s : String) (r : BwRule) (hs : documented cls s = some r) (pad : Padding K) (limits : Option (K × K))
    (data : List K) (weights : Option (List K)) (numGrid : ℕ) (data' : List K) (weights' : Option (List K))
    (hp : Pads cls pad limits data weights data' weights') (v : BwVal K) (hv : rule r data' weights' = .ok v)
    (hfit : Fits v (kernels cls data'.length numGrid)) :
    ∃ out, initKde rule grid cls (.name s) pad limits data weights numGrid = .ok out ∧ out.used = v ∧ out.data = data' ∧
      out.weights = weights' ∧ out.centres.length = kernels cls data'.length numGrid := by
  cases cls with
  | gaussV1 =>
    simp only [Pads, if_true] at hp
    obtain ⟨rfl, rfl⟩ := hp
    simp only [initKde, convert_name rule .gaussV1 s data' weights' r hs v hv, except_bind_ok]
    exact ⟨_, rfl, rfl, rfl, rfl, rfl⟩
  | exact =>
    simp only [Pads, reduceCtorEq, if_false] at hp
    simp only [initKde, BwIn.array?, hp, except_bind_ok, BwIn.padded, convert_name rule .exact s data' weights' r hs v hv]
    exact ⟨_, rfl, rfl, rfl, rfl, rfl⟩
  | grid =>
    simp only [Pads, reduceCtorEq, if_false] at hp
    have h1 : s ≠ "isj" := by rintro rfl; simp [documented] at hs
    have h2 : s ≠ "adaptive_std" := by rintro rfl; simp [documented] at hs
    have hc := (checkGridShape_ok v (min data'.length numGrid)).2 hfit
    simp only [initKde, BwIn.array?, hp, except_bind_ok, convert_name rule .grid s data' weights' r hs v hv, hgrid, h1, h2,
      decide_false, Bool.or_self, Bool.false_eq_true, if_false, hc]
    exact ⟨_, rfl, rfl, rfl, rfl, hgrid _ _⟩
  | fft =>
    simp only [Pads, reduceCtorEq, if_false] at hp
    have hc := (checkGridShape_ok v (min data'.length numGrid)).2 hfit
    simp only [initKde, BwIn.array?, hp, except_bind_ok, convert_name rule .fft s data' weights' r hs v hv, hc]
    exact ⟨_, rfl, rfl, rfl, rfl, hgrid _ _⟩

/-- C292: every other name is an error. -/
theorem bw_other_names (cls : KdeCls) (s : String) (hs : documented cls s = none) (pad : Padding K) (limits : Option (K × K))
    (data : List K) (weights : Option (List K)) (numGrid : ℕ) (data' : List K) (weights' : Option (List K))
    (hp : Pads cls pad limits data weights data' weights') :
    initKde rule grid cls (.name s) pad limits data weights numGrid = .error .valueError := by
  have hc : ∀ d w, convertBandwidth cls rule (.name s) d w = .error .valueError := by
    intro d w
    simp only [convertBandwidth, methods_documented, hs, except_bind_error]
  cases cls with
  | gaussV1 => simp only [initKde, hc, except_bind_error]
  | exact =>
    simp only [Pads, reduceCtorEq, if_false] at hp
    simp only [initKde, BwIn.array?, hp, except_bind_ok, BwIn.padded, hc, except_bind_error]
  | grid =>
    simp only [Pads, reduceCtorEq, if_false] at hp
    simp only [initKde, BwIn.array?, hp, except_bind_ok, hc, except_bind_error]
    split <;> rfl
  | fft =>
    simp only [Pads, reduceCtorEq, if_false] at hp
    simp only [initKde, BwIn.array?, hp, except_bind_ok, hc, except_bind_error]

/-! ### Given bandwidths -/

/-- C292: a number or a parameter is used as it is (`KDE1DimFFT` refuses parameters), and is the value of the parameter
`bandwidth`. -/
theorem bw_given (cls : KdeCls) (v : BwVal K) (hv : ∀ h, v ≠ .arr h) (pad : Padding K) (limits : Option (K × K)) (data : List K)
    (weights : Option (List K)) (numGrid : ℕ) (data' : List K) (weights' : Option (List K))
    (hp : Pads cls pad limits data weights data' weights') :
    ((cls ≠ .fft ∨ ∀ p, v ≠ .par p) →
      ∃ out, initKde rule grid cls (.val v) pad limits data weights numGrid = .ok out ∧ out.used = v ∧ out.reported = v ∧
        out.data = data' ∧ out.weights = weights') ∧
    (∀ p, v = .par p → initKde rule grid .fft (.val v) pad limits data weights numGrid = .error .typeError) := by
  constructor
  · intro hpar
    have harr : (BwIn.val v).array? = none := by cases v <;> simp_all [BwIn.array?]
    have hc : ∀ c d w, convertBandwidth c rule (.val v) d w = .ok (v, v) := by
      intro c d w
      cases v <;> simp_all [convertBandwidth, BwIn.arrayLike, BwVal.arrayLike]
    have hg : ∀ n, checkGridShape v n = .ok () := fun n => (checkGridShape_ok v n).2 fun h hh => absurd hh (hv h)
    cases cls with
    | gaussV1 =>
      simp only [Pads, if_true] at hp
      obtain ⟨rfl, rfl⟩ := hp
      simp only [initKde, hc, except_bind_ok]
      exact ⟨_, rfl, rfl, rfl, rfl, rfl⟩
    | exact =>
      simp only [Pads, reduceCtorEq, if_false] at hp
      simp only [initKde, harr, hp, except_bind_ok, BwIn.padded, hc]
      exact ⟨_, rfl, rfl, rfl, rfl, rfl⟩
    | grid =>
      simp only [Pads, reduceCtorEq, if_false] at hp
      simp only [initKde, harr, hp, except_bind_ok, hc, hg, Bool.false_eq_true, if_false]
      exact ⟨_, rfl, rfl, rfl, rfl, rfl⟩
    | fft =>
      simp only [Pads, reduceCtorEq, if_false] at hp
      have hnp : ∀ p, v ≠ .par p := by simpa using hpar
      cases v with
      | par p => exact absurd rfl (hnp p)
      | arr h => exact absurd rfl (hv h)
      | num h =>
        simp only [initKde, harr, hp, except_bind_ok, hc, hg]
        exact ⟨_, rfl, rfl, rfl, rfl, rfl⟩
  · rintro p rfl
    rfl

/-- C292: a callable is called with the padded data and its value is used. -/
theorem bw_callable (hgrid : ∀ n d, (grid n d).length = n) (cls : KdeCls) (f : List K → Option (List K) → Except Err (BwVal K)) (pad : Padding K) (limits : Option (K × K))
    (data : List K) (weights : Option (List K)) (numGrid : ℕ) (data' : List K) (weights' : Option (List K))
    (hp : Pads cls pad limits data weights data' weights') (v : BwVal K) (hv : f data' weights' = .ok v)
    (hfit : Fits v (kernels cls data'.length numGrid)) :
    ∃ out, initKde rule grid cls (.callable f) pad limits data weights numGrid = .ok out ∧ out.used = v ∧ out.reported = v ∧
      out.data = data' ∧ out.weights = weights' := by
  have hc : ∀ c, convertBandwidth c rule (.callable f) data' weights' = .ok (v, v) := by
    intro c
    simp [convertBandwidth, BwIn.arrayLike, hv]
  cases cls with
  | gaussV1 =>
    simp only [Pads, if_true] at hp
    obtain ⟨rfl, rfl⟩ := hp
    simp only [initKde, hc, except_bind_ok]
    exact ⟨_, rfl, rfl, rfl, rfl, rfl⟩
  | exact =>
    simp only [Pads, reduceCtorEq, if_false] at hp
    simp only [initKde, BwIn.array?, hp, except_bind_ok, BwIn.padded, hc]
    exact ⟨_, rfl, rfl, rfl, rfl, rfl⟩
  | grid =>
    simp only [Pads, reduceCtorEq, if_false] at hp
    have hg := (checkGridShape_ok v (min data'.length numGrid)).2 hfit
    simp only [initKde, BwIn.array?, hp, except_bind_ok, hc, hgrid, hg, Bool.false_eq_true, if_false]
    exact ⟨_, rfl, rfl, rfl, rfl, rfl⟩
  | fft =>
    simp only [Pads, reduceCtorEq, if_false] at hp
    have hg := (checkGridShape_ok v (min data'.length numGrid)).2 hfit
    simp only [initKde, BwIn.array?, hp, except_bind_ok, hc, hg]
    exact ⟨_, rfl, rfl, rfl, rfl, rfl⟩

/-! ### Arrays -/

/-- C292, `KDE1DimExact`: an array with one bandwidth per event stays with its events through the padding. The events are
lists of position and weight and bandwidth. Missing from the full claim: the parameter `bandwidth` (see `bw_reported_violated`)
and the classes on a grid (`bw_array_events_violated`). -/
theorem bw_array_exact_partial (pad : Padding K) (hpad : pad ≠ .off) (fl fu : Option K) (hf : fractions pad = .ok (fl, fu)) (lo hi : K)
    (events : List (K × K × K)) (h2 : 2 ≤ events.length) (numGrid : ℕ) :
    ∃ out, initKde rule grid .exact (.val (.arr (events.map (·.2.2)))) pad (some (lo, hi)) (events.map (·.1))
        (some (events.map (·.2.1))) numGrid = .ok out ∧
      out.centres = (reflected lo hi fl fu events).map (·.1) ∧
      out.weights = some ((reflected lo hi fl fu events).map (·.2.1)) ∧
      out.used = .arr ((reflected lo hi fl fu events).map (·.2.2)) := by
  have harr : (BwIn.val (.arr (events.map (·.2.2)))).array? = some (events.map (·.2.2)) := by
    simp only [BwIn.array?, List.length_map]
    rw [if_pos (by omega)]
  have hp := pad_refines lo hi fl fu events (some fun a : K × K => a.1) (some fun a : K × K => a.2)
  have hpad' : padreflect pad (some (lo, hi)) (events.map (·.1)) (some (events.map (·.2.1))) (some (events.map (·.2.2))) =
      .ok ((reflected lo hi fl fu events).map (·.1), some ((reflected lo hi fl fu events).map (·.2.1)),
        some ((reflected lo hi fl fu events).map (·.2.2))) := by
    cases pad with
    | off => exact absurd rfl hpad
    | on => simp only [padreflect, hf, padLimits, except_bind_ok]; exact hp
    | number f => simp only [padreflect, hf, padLimits, except_bind_ok]; exact hp
    | dict d => simp only [padreflect, hf, padLimits, except_bind_ok]; exact hp
  simp only [initKde, harr, hpad', except_bind_ok, BwIn.padded, convertBandwidth]
  exact ⟨_, rfl, rfl, rfl, rfl⟩

/-- C292, `KDE1DimGrid` and `KDE1DimFFT` without padding: an array with more than one entry has to have as many as the grid has
points, the smaller one of the number of events and the number asked for. -/
theorem bw_array_grid (hgrid : ∀ n d, (grid n d).length = n) (cls : KdeCls) (hcls : cls = .grid ∨ cls = .fft) (h : List K) (h2 : 2 ≤ h.length) (limits : Option (K × K)) (data : List K)
    (weights : Option (List K)) (numGrid : ℕ) :
    (h.length = min data.length numGrid →
      ∃ out, initKde rule grid cls (.val (.arr h)) .off limits data weights numGrid = .ok out ∧ out.used = .arr h) ∧
    (h.length ≠ min data.length numGrid →
      initKde rule grid cls (.val (.arr h)) .off limits data weights numGrid = .error .shapeIncompatible) := by
  have hc : ∀ c, convertBandwidth c rule (.val (.arr h)) data weights = .ok (.arr h, .num (-999999)) := by
    intro c
    simp [convertBandwidth, BwIn.arrayLike, BwVal.arrayLike]
  have hlt : h.length > 1 := by omega
  rcases hcls with rfl | rfl
  · constructor
    · intro he
      simp only [initKde, padreflect, except_bind_ok, hc, hgrid, checkGridShape, he, if_pos (he ▸ hlt), ne_eq, not_true, if_false,
        Bool.false_eq_true]
      exact ⟨_, rfl, rfl⟩
    · intro he
      simp only [initKde, padreflect, except_bind_ok, hc, hgrid, checkGridShape, if_pos hlt, ne_eq, he, not_false_iff, if_true,
        Bool.false_eq_true, if_false, except_bind_error]
  · constructor
    · intro he
      simp only [initKde, padreflect, except_bind_ok, hc, checkGridShape, he, if_pos (he ▸ hlt), ne_eq, not_true, if_false]
      exact ⟨_, rfl, rfl⟩
    · intro he
      simp only [initKde, padreflect, except_bind_ok, hc, checkGridShape, if_pos hlt, ne_eq, he, not_false_iff, if_true,
        except_bind_error]

/-- C292: an array with a single entry is used as it is, for every kernel and with every padding; it is not a bandwidth per event. -/
theorem bw_array_one (cls : KdeCls) (h : K) (pad : Padding K) (limits : Option (K × K)) (data : List K)
    (weights : Option (List K)) (numGrid : ℕ) (data' : List K) (weights' : Option (List K))
    (hp : Pads cls pad limits data weights data' weights') :
    ∃ out, initKde rule grid cls (.val (.arr [h])) pad limits data weights numGrid = .ok out ∧ out.used = .arr [h] ∧
      out.data = data' ∧ out.weights = weights' := by
  have harr : (BwIn.val (.arr [h])).array? = none := by simp [BwIn.array?]
  have hc : ∀ c d w, convertBandwidth c rule (.val (.arr [h])) d w = .ok (.arr [h], .num (-999999)) := by
    intro c d w
    simp [convertBandwidth, BwIn.arrayLike, BwVal.arrayLike]
  have hg : ∀ n, checkGridShape (.arr [h]) n = .ok () := fun n => by simp [checkGridShape]
  cases cls with
  | gaussV1 =>
    simp only [Pads, if_true] at hp
    obtain ⟨rfl, rfl⟩ := hp
    simp only [initKde, hc, except_bind_ok]
    exact ⟨_, rfl, rfl, rfl, rfl⟩
  | exact =>
    simp only [Pads, reduceCtorEq, if_false] at hp
    simp only [initKde, harr, hp, except_bind_ok, BwIn.padded, hc]
    exact ⟨_, rfl, rfl, rfl, rfl⟩
  | grid =>
    simp only [Pads, reduceCtorEq, if_false] at hp
    simp only [initKde, harr, hp, except_bind_ok, hc, hg, Bool.false_eq_true, if_false]
    exact ⟨_, rfl, rfl, rfl, rfl⟩
  | fft =>
    simp only [Pads, reduceCtorEq, if_false] at hp
    simp only [initKde, harr, hp, except_bind_ok, hc, hg]
    exact ⟨_, rfl, rfl, rfl, rfl⟩

/-! ### Witnesses -/

def wRule : BwRule → List ℚ → Option (List ℚ) → Except Err (BwVal ℚ) := fun r d _ => match r with
  | .adaptive _ _ => .ok (.arr (d.map fun x => x + 1))
  | _ => .ok (.num d.length)
def wGrid : ℕ → List ℚ → List ℚ := fun n _ => List.replicate n 0

/-- C292 is violated for the classes on a grid: "an array-like object with the same size as *data*" (documentation of all
classes) is refused if there are more events than points of the grid. -/
theorem bw_array_events_violated :
    initKde wRule wGrid .grid (.val (.arr [1, 1, 2])) .off (some (0, 1)) [1 / 20, 1 / 2, 19 / 20] none 2 =
      .error .shapeIncompatible ∧
    initKde wRule wGrid .fft (.val (.arr [1, 1, 2])) .off (some (0, 1)) [1 / 20, 1 / 2, 19 / 20] none 2 =
      .error .shapeIncompatible :=
  ⟨((bw_array_grid wRule wGrid (by simp [wGrid]) .grid (.inl rfl) [1, 1, 2] (by decide) _ _ none 2).2 (by decide)),
    ((bw_array_grid wRule wGrid (by simp [wGrid]) .fft (.inr rfl) [1, 1, 2] (by decide) _ _ none 2).2 (by decide))⟩

/-- C292 is violated: an array with one entry per point of the grid, which works without padding, is an error with padding,
because the padding takes its entries at the positions of the events. -/
theorem bw_array_padding_violated :
    (∃ out, initKde wRule wGrid .grid (.val (.arr [1, 2])) .off (some (0, 1)) [1 / 20, 1 / 2, 19 / 20] none 2 = .ok out ∧
      out.used = .arr [1, 2]) ∧
    (initKde wRule wGrid .grid (.val (.arr [1, 2])) .on (some (0, 1)) [1 / 20, 1 / 2, 19 / 20] none 2).map (·.used) =
      .error .invalidArgument :=
  ⟨(bw_array_grid wRule wGrid (by simp [wGrid]) .grid (.inl rfl) [1, 2] (by decide) _ _ none 2).1 (by decide),
    by decide +kernel⟩

/-- C292 is violated: for arrays and adaptive rules the parameter `bandwidth` of the KDE is -999999 and not the bandwidth. -/
theorem bw_reported_violated :
    (initKde wRule wGrid .exact (.val (.arr [1, 2])) .off (some (0, 1)) [0, 1] none 2).map (fun o => (o.used, o.reported)) =
      .ok (.arr [1, 2], .num (-999999)) ∧
    (initKde wRule wGrid .exact (.name "adaptive_geom") .off (some (0, 1)) [0, 1] none 2).map (fun o => (o.used, o.reported)) =
      .ok (.arr [1, 2], .num (-999999)) := by
  constructor <;> decide +kernel

/-- C292: the parameter `bandwidth` is the bandwidth for the global rules by name. Missing from the full claim: arrays and
adaptive rules, for which it is not (`bw_reported_violated`). -/
theorem bw_reported_partial (cls : KdeCls) (s : String) (r : BwRule) (hs : documented cls s = some r)
    (hr : ∀ a g, r ≠ .adaptive a g) (pad : Padding K) (limits : Option (K × K)) (data : List K) (weights : Option (List K))
    (numGrid : ℕ) (out : KdeOut K) (ho : initKde rule grid cls (.name s) pad limits data weights numGrid = .ok out) :
    out.reported = out.used := by
  have hd : s ∉ dummyNames := by
    intro hm
    simp only [dummyNames, List.mem_cons, List.not_mem_nil, or_false] at hm
    rcases hm with rfl | rfl | rfl | rfl | rfl <;> cases cls <;> simp [documented] at hs <;> exact hr _ _ hs.symm
  have hc : ∀ c d w u p, convertBandwidth c rule (.name s) d w = .ok (u, p) → p = u := by
    intro c d w u p h
    unfold convertBandwidth at h
    simp only [BwIn.arrayLike, hd, decide_false, Bool.or_self, Bool.false_eq_true, if_false] at h
    split at h
    · obtain ⟨x, _, hx⟩ := bind_eq_ok.1 h
      cases hx
      rfl
    · simp at h
  cases cls with
  | gaussV1 =>
    obtain ⟨⟨u, p⟩, h1, h2⟩ := bind_eq_ok.1 ho
    cases h2
    exact hc _ _ _ _ _ h1
  | exact =>
    obtain ⟨⟨d, w, a⟩, h1, h2⟩ := bind_eq_ok.1 ho
    obtain ⟨⟨u, p⟩, h3, h4⟩ := bind_eq_ok.1 h2
    cases h4
    have ha : a = none := by
      cases pad with
      | off => cases h1; rfl
      | on =>
        obtain ⟨f, _, h6⟩ := bind_eq_ok.1 h1
        obtain ⟨l, _, h8⟩ := bind_eq_ok.1 h6
        simp only [padAt, BwIn.array?, gatherOpt, catOpt, bind_eq_ok] at h8
        obtain ⟨_, _, _, _, _, _, _, _, _, _, _, _, h9⟩ := h8
        cases h9; rfl
      | number f =>
        obtain ⟨f, _, h6⟩ := bind_eq_ok.1 h1
        obtain ⟨l, _, h8⟩ := bind_eq_ok.1 h6
        simp only [padAt, BwIn.array?, gatherOpt, catOpt, bind_eq_ok] at h8
        obtain ⟨_, _, _, _, _, _, _, _, _, _, _, _, h9⟩ := h8
        cases h9; rfl
      | dict f =>
        obtain ⟨f, _, h6⟩ := bind_eq_ok.1 h1
        obtain ⟨l, _, h8⟩ := bind_eq_ok.1 h6
        simp only [padAt, BwIn.array?, gatherOpt, catOpt, bind_eq_ok] at h8
        obtain ⟨_, _, _, _, _, _, _, _, _, _, _, _, h9⟩ := h8
        cases h9; rfl
    subst ha
    exact hc _ _ _ _ _ h3
  | grid =>
    simp only [initKde] at ho
    split at ho
    · exact absurd ho (by simp)
    · obtain ⟨⟨d, w, a⟩, h1, h2⟩ := bind_eq_ok.1 ho
      obtain ⟨⟨u, p⟩, h3, h4⟩ := bind_eq_ok.1 h2
      obtain ⟨_, _, h6⟩ := bind_eq_ok.1 h4
      cases h6
      exact hc _ _ _ _ _ h3
  | fft =>
    simp only [initKde] at ho
    obtain ⟨⟨d, w, a⟩, h1, h2⟩ := bind_eq_ok.1 ho
    obtain ⟨⟨u, p⟩, h3, h4⟩ := bind_eq_ok.1 h2
    obtain ⟨_, _, h6⟩ := bind_eq_ok.1 h4
    cases h6
    rfl

/-- Cases that meet the hypotheses: a name with padding on a grid, and an array of the exact KDE with padding. -/
example : Pads .grid .on (some (0, 1)) [1 / 20, (1 / 2 : ℚ)] none [-1 / 20, 1 / 20, 1 / 2] none ∧
    (initKde wRule wGrid .grid .none .on (some (0, 1)) [1 / 20, 1 / 2] none 2).map (fun o => (o.used, o.reported, o.centres)) =
      .ok (.num 3, .num 3, [0, 0]) ∧
    (initKde wRule wGrid .exact (.val (.arr [7, 8])) .on (some (0, 1)) [1 / 20, 1 / 2] none 2).map (fun o => (o.used, o.centres)) =
      .ok (.arr [7, 7, 8], [-1 / 20, 1 / 20, 1 / 2]) := by
  refine ⟨?_, ?_, ?_⟩
  · simp only [Pads, reduceCtorEq, if_false]
    decide +kernel
  · decide +kernel
  · decide +kernel

end Zfit.Kde
