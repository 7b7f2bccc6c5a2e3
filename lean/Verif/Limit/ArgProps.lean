import Verif.Limit.Props

/-! Properties C210-C212: the arguments of `Space`, binned spaces and `convert_to_space`. -/

namespace Zfit.Lims

open Zfit

/-! ## C210: the ways to give limits -/

theorem checkRect_ok {n : Nat} {lo up : List Rat} {r : List Rat × List Rat} (h : checkRect n lo up = .ok r) :
    r = (lo, up) ∧ lo.length = n ∧ up.length = n ∧ ∀ q ∈ lo.zip up, q.1 < q.2 := by
  unfold checkRect at h
  split at h
  · cases h
  · rename_i h1
    split at h
    · cases h
    · rename_i h2
      split at h
      · cases h
      · rename_i h3
        simp only [not_not] at h1 h2 h3
        refine ⟨by simpa using h.symm, h2, by omega, ?_⟩
        rw [List.all_eq_true] at h3
        intro q hq
        have := h3 (decide (q.1 < q.2)) (by
          rw [← List.map_uncurry_zip_eq_zipWith]
          exact List.mem_map.2 ⟨q, hq, rfl⟩)
        simpa using this

theorem checkRect_of {n : Nat} {lo up : List Rat} (h1 : lo.length = n) (h2 : up.length = n)
    (h3 : ∀ q ∈ lo.zip up, q.1 < q.2) : checkRect n lo up = .ok (lo, up) := by
  unfold checkRect
  rw [if_neg (by omega), if_neg (by omega), if_neg]
  simp only [not_not]
  rw [List.all_eq_true]
  intro b hb
  rw [← List.map_uncurry_zip_eq_zipWith] at hb
  obtain ⟨q, hq, rfl⟩ := List.mem_map.1 hb
  exact decide_eq_true (h3 q hq)

/-- C210.  A rectangle means the same whether it is given as `limits`, as `lower` and `upper`, as `rect_limits` or as the
only further positional argument. -/
theorem ways_agree (obs : List String) (lo up : List Rat) (i j : Bool) :
    Space.init (some obs) { lower := some (.vec lo i), upper := some (.vec up j) } =
      Space.init (some obs) { limits := some (.pair lo up) } ∧
    Space.init (some obs) { rectLimits := some (.pair lo up) } =
      Space.init (some obs) { limits := some (.pair lo up) } ∧
    Space.init (some obs) { pos := [some (.pair lo up)] } =
      Space.init (some obs) { limits := some (.pair lo up) } := by
  refine ⟨rfl, ?_, rfl⟩
  simp only [Space.init, Args.resolve, except_bind_ok, Space.make]
  cases newObs (some obs) none with
  | error e => rfl
  | ok o => rfl

/-- C210.  For one observable and two Python numbers, `Space(obs, lower, upper)`, the keywords `lower` and `upper`, and
the pair as `limits` or as positional argument mean the same. -/
theorem number_ways_agree (o : String) (a b : Val) (x y : Rat) (ha : a = .flt x ∨ ∃ z : Int, a = .int z ∧ x = z)
    (hb : b = .flt y ∨ ∃ z : Int, b = .int z ∧ y = z) (i : Bool) :
    Space.init (some [o]) { pos := [some a, some b] } = Space.init (some [o]) { limits := some (.pair [x] [y]) } ∧
    Space.init (some [o]) { lower := some a, upper := some b } =
      Space.init (some [o]) { limits := some (.pair [x] [y]) } ∧
    Space.init (some [o]) { limits := some (.vec [x, y] i) } =
      Space.init (some [o]) { limits := some (.pair [x] [y]) } ∧
    Space.init (some [o]) { pos := [some (.vec [x, y] i)] } =
      Space.init (some [o]) { limits := some (.pair [x] [y]) } := by
  rcases ha with rfl | ⟨z, rfl, rfl⟩ <;> rcases hb with rfl | ⟨w, rfl, rfl⟩ <;> exact ⟨rfl, rfl, rfl, rfl⟩

/-- C210.  A rectangle is accepted exactly if there is an observable, there is one lower and one upper limit per
observable, and every lower limit is below its upper limit. -/
theorem rectangle_accepted (obs : List String) (lo up : List Rat) :
    (∃ s, Space.init (some obs) { limits := some (.pair lo up) } = .ok s) ↔
      obs ≠ [] ∧ lo.length = obs.length ∧ up.length = obs.length ∧ ∀ q ∈ lo.zip up, q.1 < q.2 := by
  cases obs with
  | nil =>
    simp [Space.init, Args.resolve, Space.make, newObs, except_bind_ok, except_bind_error]
  | cons a l =>
    constructor
    · rintro ⟨s, h⟩
      simp only [Space.init, Args.resolve, Space.make, newObs, newLims, except_bind_ok, limitsOf, Val.unpack] at h
      cases hc : checkRect (a :: l).length lo up with
      | error e => rw [hc] at h; simp [except_bind_error] at h
      | ok r =>
        obtain ⟨-, h1, h2, h3⟩ := checkRect_ok hc
        exact ⟨by simp, h1, h2, h3⟩
    · rintro ⟨-, h1, h2, h3⟩
      refine ⟨⟨a :: l, perObs (a :: l) lo up, none⟩, ?_⟩
      simp only [Space.init, Args.resolve, Space.make, newObs, newLims, except_bind_ok, limitsOf, Val.unpack,
        checkRect_of h1 h2 h3]
      rfl

/-- C210: an accepted rectangle is what the space contains. -/
theorem limits_given (obs : List String) (lo up : List Rat) (s : Space)
    (h : Space.init (some obs) { limits := some (.pair lo up) } = .ok s) (sem : Nat → List Rat → Bool)
    (p : String → Rat) :
    s.obs = obs ∧ s.inside sem (obs.map p) =
      .ok ((List.zip obs (lo.zip up)).all (fun q => decide (q.2.1 ≤ p q.1) && decide (p q.1 ≤ q.2.2))) := by
  have hs : s.obs = obs := by rw [init_rect h]
  refine ⟨hs, ?_⟩
  have := contains_iff_partial s _ (Made.rect obs lo up s h) sem p
  rw [hs] at this
  rw [this]
  congr 1
  rw [← List.map_uncurry_zip_eq_zipWith, List.all_map]
  rfl

/-! ## C215: limits given incompletely or twice -/

/-- C215, the part that holds: more than three positional arguments are refused.
Missing from the full claim: only one side, two ways at once, and numbers that are neither Python integers nor floats, see
`one_side_violated`, `two_ways_violated` and `numpy_numbers_violated`. -/
theorem too_many_positional_partial (obs : List String) (a : Args) (h : 3 ≤ a.pos.length) :
    Space.init (some obs) a = .error .breakingApiChange := by
  unfold Space.init Args.resolve
  match hp : a.pos with
  | [] => rw [hp] at h; simp at h
  | [_] => rw [hp] at h; simp at h
  | [_, _] => rw [hp] at h; simp at h
  | _ :: _ :: _ :: _ => rfl

example : ∃ s, Space.init (some ["x", "y"]) { limits := some (.pair [0, 1] [2, 3]) } = .ok s ∧
    s.inside demoSem [1, 2] = .ok true ∧ s.inside demoSem [1, 4] = .ok false :=
  ⟨⟨["x", "y"], [(["x"], .rect 0 2), (["y"], .rect 1 3)], none⟩, by decide +kernel, by decide +kernel,
    by decide +kernel⟩

/-- C215 fails if only one side is given: `Space("x", lower=0)` is a space without limits, without an error. -/
theorem one_side_violated :
    ∃ s, Space.init (some ["x"]) { lower := some (.int 0) } = .ok s ∧ s.limitsAreSet = false ∧
      ∀ (sem : Nat → List Rat → Bool) (v : Rat), s.inside sem [v] = .error .limitsNotSpecified := by
  refine ⟨⟨["x"], [(["x"], .unset)], none⟩, by decide +kernel, by decide +kernel, ?_⟩
  intro sem v
  rfl

/-- C215 fails if limits are given twice: `Space("x", limits=(0, 1), lower=5, upper=6)` is the interval from 5 to 6, and
`Space("x", (0, 1), limits=(5, 6))` the one from 0 to 1, without an error. -/
theorem two_ways_violated :
    (∃ s, Space.init (some ["x"]) { limits := some (.pair [0] [1]), lower := some (.int 5), upper := some (.int 6) } =
      .ok s ∧ s.lims = [(["x"], .rect 5 6)]) ∧
    (∃ s, Space.init (some ["x"]) { pos := [some (.pair [0] [1])], limits := some (.pair [5] [6]) } =
      .ok s ∧ s.lims = [(["x"], .rect 0 1)]) := by
  exact ⟨⟨⟨["x"], [(["x"], .rect 5 6)], none⟩, by decide +kernel, rfl⟩,
    ⟨⟨["x"], [(["x"], .rect 0 1)], none⟩, by decide +kernel, rfl⟩⟩

/-- C215 fails for numbers that are neither Python integers nor floats: `Space("x", np.int64(0), np.int64(5))` takes the
second number as a binning and is a `TypeError`, although the keywords `lower` and `upper` accept the same numbers. -/
theorem numpy_numbers_violated :
    Space.init (some ["x"]) { pos := [some (.npn 0), some (.npn 5)] } = .error .typeError ∧
    ∃ s, Space.init (some ["x"]) { lower := some (.npn 0), upper := some (.npn 5) } = .ok s ∧
      s.lims = [(["x"], .rect 0 5)] :=
  ⟨by decide +kernel, ⟨["x"], [(["x"], .rect 0 5)], none⟩, by decide +kernel, rfl⟩

/-! ## C211: the bins cover the limits -/

/-- In a binned space the axes are named like the observables, in their order, and the first and last edges of each axis
are the limits of its observable. -/
def Covered (s : Space) : Prop :=
  ∀ l, s.bins = some l → l.map Axis.name = s.obs ∧ ∀ a ∈ l, ∃ lo up, s.interval a.name = .ok (lo, up) ∧
    a.edges.head? = some lo ∧ a.edges.getLast? = some up

/-- The histories in which limits and bins come from one another: rectangles without bins; numbers of bins in a
rectangle; axes without limits, for observables in the order of the axes; reordering and restricting; new numbers of bins;
new limits for a space without bins, and the limits of the bins for one with bins. -/
inductive Binned : Space → Prop
  | rect (obs : List String) (lo up : List Rat) (s : Space) (hn : obs.Nodup)
      (h : Space.init (some obs) { limits := some (.pair lo up) } = .ok s) : Binned s
  | ints (obs : List String) (lo up : List Rat) (ns : List Rat) (s : Space) (hn : obs.Nodup)
      (h : Space.init (some obs) { limits := some (.pair lo up), binning := some (.vec ns true) } = .ok s) : Binned s
  | axes (obs : Option (List String)) (l : List Axis) (s : Space) (hn : (l.map Axis.name).Nodup)
      (he : ∀ a ∈ l, a.edges ≠ []) (ho : obs = none ∨ obs = some (l.map Axis.name))
      (h : Space.init obs { binning := some (.axes l) } = .ok s) : Binned s
  | withObs (s s' : Space) (req : List String) (hs : Binned s) (hr : req.Nodup) (h : s.withObs req = .ok s') : Binned s'
  | withBinning (s s' : Space) (ns : List Rat) (hs : Binned s)
      (h : s.withBinning (some (.vec ns true)) = .ok s') : Binned s'
  | withLimits (s s' : Space) (lo up : List Rat) (hs : Binned s) (hb : s.bins = none)
      (h : s.withLimits (some (.pair lo up)) none = .ok s') : Binned s'
  | limitsOfBins (s s' : Space) (hs : Binned s) (hb : s.bins ≠ none)
      (h : s.withLimits none none = .ok s') : Binned s'

/-- Rectangular limits for exactly the own observables. -/
structure RectOn (obs : List String) (lims : List (List String × Lim)) : Prop where
  nodup : obs.Nodup
  ne : obs ≠ []
  find : ∀ o ∈ obs, ∃ lo up, dictGet lims [o] = some (.rect lo up)
  only : ∀ e ∈ lims, ∃ o ∈ obs, ∃ lo up, e = ([o], .rect lo up)

theorem RectOn.interval {s : Space} (h : RectOn s.obs s.lims) {o : String} {lo up : Rat}
    (hd : dictGet s.lims [o] = some (.rect lo up)) : s.interval o = .ok (lo, up) := by
  have hmem : s.lims ≠ [] := by
    intro he
    rw [he] at hd
    simp [dictGet] at hd
  have hrect : s.hasRectLimits = true := by
    unfold Space.hasRectLimits
    rw [Bool.and_eq_true]
    constructor
    · rw [List.all_eq_true]
      intro e he
      obtain ⟨o, _, lo, up, rfl⟩ := h.only e he
      rfl
    · simpa using hmem
  unfold Space.interval
  rw [hrect]
  simp [hd]

/-- Axes named like the observables whose edges end at the limits. -/
def Ends (obs : List String) (lims : List (List String × Lim)) (l : List Axis) : Prop :=
  l.map Axis.name = obs ∧ ∀ a ∈ l, ∃ lo up, dictGet lims [a.name] = some (.rect lo up) ∧
    a.edges.head? = some lo ∧ a.edges.getLast? = some up

structure BInv (s : Space) : Prop where
  rect : RectOn s.obs s.lims
  ends : ∀ l, s.bins = some l → Ends s.obs s.lims l

theorem BInv.covered {s : Space} (h : BInv s) : Covered s := by
  intro l hl
  obtain ⟨h1, h2⟩ := h.ends l hl
  refine ⟨h1, fun a ha => ?_⟩
  obtain ⟨lo, up, hd, he⟩ := h2 a ha
  exact ⟨lo, up, h.rect.interval hd, he⟩

theorem dictGet_perObs (obs : List String) (lo up : List Rat) (hn : obs.Nodup) (i : Nat) (o : String) (a b : Rat)
    (ho : obs[i]? = some o) (ha : lo[i]? = some a) (hb : up[i]? = some b) :
    dictGet (perObs obs lo up) [o] = some (.rect a b) := by
  induction obs generalizing lo up i with
  | nil => simp at ho
  | cons x obs ih =>
    cases lo with
    | nil => simp at ha
    | cons y lo =>
      cases up with
      | nil => simp at hb
      | cons z up =>
        have hp : perObs (x :: obs) (y :: lo) (z :: up) = ([x], .rect y z) :: perObs obs lo up := rfl
        rw [hp]
        cases i with
        | zero =>
          simp only [List.getElem?_cons_zero, Option.some.injEq] at ho ha hb
          subst ho ha hb
          simp [dictGet]
        | succ i =>
          simp only [List.getElem?_cons_succ] at ho ha hb
          have hx : x ≠ o := by
            rintro rfl
            exact (List.nodup_cons.1 hn).1 (List.mem_of_getElem? ho)
          have := ih lo up (List.nodup_cons.1 hn).2 i ho ha hb
          simp only [dictGet, List.find?_cons] at this ⊢
          simpa [hx] using this

theorem rectOn_perObs {obs : List String} {lo up : List Rat} (hn : obs.Nodup) (hne : obs ≠ [])
    (h1 : lo.length = obs.length) (h2 : up.length = obs.length) : RectOn obs (perObs obs lo up) := by
  refine ⟨hn, hne, ?_, ?_⟩
  · intro o ho
    obtain ⟨i, hi, rfl⟩ := List.getElem_of_mem ho
    exact ⟨lo[i], up[i], dictGet_perObs obs lo up hn i _ _ _ (List.getElem?_eq_getElem hi)
      (List.getElem?_eq_getElem (by omega)) (List.getElem?_eq_getElem (by omega))⟩
  · intro e he
    obtain ⟨o, ho, a, b, h⟩ := perObs_mem he
    exact ⟨o, ho, a, b, h⟩

theorem limitsOf_pair_ok {obs : List String} {lo up : List Rat} {d : List (List String × Lim)}
    (h : limitsOf obs (some (.pair lo up)) none = .ok d) :
    d = perObs obs lo up ∧ lo.length = obs.length ∧ up.length = obs.length := by
  simp only [limitsOf, Val.unpack, except_bind_ok] at h
  cases hc : checkRect obs.length lo up with
  | error e => rw [hc] at h; simp [except_bind_error] at h
  | ok r =>
    obtain ⟨rfl, h1, h2, -⟩ := checkRect_ok hc
    rw [hc] at h
    exact ⟨by simpa [except_bind_ok, except_pure] using h.symm, h1, h2⟩

theorem regular_ends (n : Nat) (hn : n ≠ 0) (lo up : Rat) :
    (regularEdges n lo up).head? = some lo ∧ (regularEdges n lo up).getLast? = some up := by
  have hq : (n : Rat) ≠ 0 := by exact_mod_cast hn
  constructor
  · unfold regularEdges
    rw [List.range_succ_eq_map]
    simp
  · unfold regularEdges
    rw [List.range_succ]
    rw [List.map_append, List.map_singleton, List.getLast?_append, List.getLast?_singleton, Option.some_or,
      div_self hq]
    congr 1
    ring

theorem autoBins_ends {s : Space} (h : RectOn s.obs s.lims) {ns : List Rat} {l : List Axis}
    (ha : autoBins s ns = .ok l) : Ends s.obs s.lims l := by
  unfold autoBins at ha
  split at ha
  · cases ha
  · rename_i hlen
    replace hlen : ns.length = s.obs.length := by omega
    have hm := (mapM_ok_iff _ _ _).1 ha
    have hone : ∀ p a, autoAxis s p = .ok a → a.name = p.1 ∧ ∃ lo up, s.interval p.1 = .ok (lo, up) ∧
        a.edges.head? = some lo ∧ a.edges.getLast? = some up := by
      intro p a hp
      unfold autoAxis at hp
      split at hp
      · cases hp
      · rename_i hlt
        obtain ⟨⟨lo, up⟩, hi, hp⟩ := bind_eq_ok.1 hp
        simp only [except_pure, Except.ok.injEq] at hp
        subst hp
        refine ⟨rfl, lo, up, hi, regular_ends _ ?_ lo up⟩
        have h1 : (1 : Rat) ≤ p.2 := not_lt.1 hlt
        have h0 : (0 : Rat) < p.2 := lt_of_lt_of_le one_pos h1
        have := Rat.num_pos.2 h0
        omega
    have hnames : l.map Axis.name = s.obs := by
      have h1 : ∀ (ps : List (String × Rat)) (l : List Axis), ps.map (autoAxis s) = l.map Except.ok →
          l.map Axis.name = ps.map (·.1) := by
        intro ps
        induction ps with
        | nil => intro l hl; cases l <;> simp_all
        | cons p ps ih =>
          intro l hl
          cases l with
          | nil => simp at hl
          | cons a l =>
            simp only [List.map_cons, List.cons.injEq] at hl ⊢
            exact ⟨(hone p a hl.1).1, ih l hl.2⟩
      rw [h1 _ _ hm, List.map_fst_zip (by omega)]
    refine ⟨hnames, ?_⟩
    intro a hal
    have : (Except.ok a : Except Err Axis) ∈ (s.obs.zip ns).map (autoAxis s) := by
      rw [hm]
      exact List.mem_map_of_mem hal
    obtain ⟨p, hp, hpa⟩ := List.mem_map.1 this
    obtain ⟨hname, lo, up, hi, he⟩ := hone p a hpa
    have hpo : p.1 ∈ s.obs := (List.of_mem_zip hp).1
    obtain ⟨lo', up', hd⟩ := h.find p.1 hpo
    have := h.interval hd
    rw [hi] at this
    simp only [Except.ok.injEq, Prod.mk.injEq] at this
    obtain ⟨rfl, rfl⟩ := this
    exact ⟨lo, up, by rw [hname]; exact hd, he⟩

theorem findAxis_ok {l : List Axis} {o : String} {a : Axis} (h : findAxis l o = .ok a) : a ∈ l ∧ a.name = o := by
  unfold findAxis at h
  split at h
  · rename_i b hb
    simp only [Except.ok.injEq] at h
    subst h
    exact ⟨List.mem_of_find?_eq_some hb, by simpa using List.find?_some hb⟩
  · cases h

theorem mapM_findAxis {l r : List Axis} {obs : List String} (h : obs.mapM (findAxis l) = .ok r) :
    r.map Axis.name = obs ∧ ∀ a ∈ r, a ∈ l := by
  have hm := (mapM_ok_iff _ _ _).1 h
  clear h
  induction obs generalizing r with
  | nil => cases r <;> simp_all
  | cons o obs ih =>
    cases r with
    | nil => simp at hm
    | cons a r =>
      simp only [List.map_cons, List.cons.injEq] at hm ⊢
      obtain ⟨h1, h2⟩ := findAxis_ok hm.1
      obtain ⟨h3, h4⟩ := ih hm.2
      refine ⟨⟨h2, h3⟩, ?_⟩
      intro b hb
      rcases List.mem_cons.1 hb with rfl | hb
      · exact h1
      · exact h4 b hb

theorem sortBins_ok {obs : List String} {l r : List Axis} (h : sortBins obs l = .ok r) :
    r.map Axis.name = obs ∧ ∀ a ∈ r, a ∈ l := by
  unfold sortBins at h
  split at h
  · cases h
  · split at h
    · cases h
    · exact mapM_findAxis h

theorem except_map_ok {α β : Type} {f : α → β} {x : Except Err α} {y : β} (h : x.map f = .ok y) :
    ∃ a, x = .ok a ∧ f a = y := by
  cases x with
  | error e => simp [Except.map] at h
  | ok a => exact ⟨a, rfl, by simpa [Except.map] using h⟩

theorem make_ok {obs : Option (List String)} {lim : LimIn} {rect bins : Option Val} {s : Space}
    (h : Space.make obs lim rect bins = .ok s) : newObs obs bins = .ok s.obs ∧
      newLims s.obs lim rect bins = .ok s.lims ∧ newBins ⟨s.obs, s.lims, none⟩ bins = .ok s.bins := by
  unfold Space.make at h
  obtain ⟨o, ho, h⟩ := bind_eq_ok.1 h
  obtain ⟨d, hd, h⟩ := bind_eq_ok.1 h
  obtain ⟨b, hb, h⟩ := bind_eq_ok.1 h
  simp only [except_pure, Except.ok.injEq] at h
  subst h
  exact ⟨ho, hd, hb⟩

theorem newObs_some {o : List String} {bins : Option Val} {r : List String} (h : newObs (some o) bins = .ok r) :
    r = o ∧ o ≠ [] := by
  cases o with
  | nil => simp [newObs] at h
  | cons a l => simp [newObs] at h; exact ⟨h.symm, by simp⟩

/-- Taking the limits from the edges of axes named like the observables. -/
theorem edges_inv {obs : List String} {l r : List Axis} {d : List (List String × Lim)} (hn : obs.Nodup) (hne : obs ≠ [])
    (hnames : l.map Axis.name = obs) (he : ∀ a ∈ l, a.edges ≠ [])
    (hd : limitsOf obs (some (edgeLimits l)) none = .ok d) (hr : sortBins obs l = .ok r) :
    RectOn obs d ∧ Ends obs d r := by
  unfold edgeLimits at hd
  obtain ⟨rfl, h1, h2⟩ := limitsOf_pair_ok hd
  refine ⟨rectOn_perObs hn hne h1 h2, ?_⟩
  obtain ⟨hrn, hrl⟩ := sortBins_ok hr
  refine ⟨hrn, ?_⟩
  intro a ha
  obtain ⟨i, hi, hai⟩ := List.getElem_of_mem (hrl a ha)
  have hne' := he a (hrl a ha)
  refine ⟨a.edges.headD 0, a.edges.getLastD 0, ?_, ?_, ?_⟩
  · apply dictGet_perObs obs _ _ hn i
    · rw [← hnames, List.getElem?_map, List.getElem?_eq_getElem hi, hai]
      rfl
    · rw [List.getElem?_map, List.getElem?_eq_getElem hi, hai]
      rfl
    · rw [List.getElem?_map, List.getElem?_eq_getElem hi, hai]
      rfl
  · cases hh : a.edges with
    | nil => exact absurd hh hne'
    | cons x l => rfl
  · rw [List.getLast?_eq_some_getLast hne']
    rw [List.getLastD_eq_getLast?, List.getLast?_eq_some_getLast hne']
    rfl

theorem dictGet_keep {obs : List String} {d : List (List String × Lim)} {o : String} (ho : o ∈ obs) :
    dictGet (keepDict obs d) [o] = dictGet d [o] := by
  unfold dictGet keepDict
  congr 1
  rw [List.find?_filter]
  congr 1
  funext e
  by_cases h : e.1 = [o]
  · simp [h, ho]
  · simp [h]

theorem RectOn.keep {obs own : List String} {d : List (List String × Lim)} (h : RectOn own d) (hn : obs.Nodup)
    (hne : obs ≠ []) (hsub : ∀ o ∈ obs, o ∈ own) : RectOn obs (keepDict obs d) := by
  refine ⟨hn, hne, ?_, ?_⟩
  · intro o ho
    rw [dictGet_keep ho]
    exact h.find o (hsub o ho)
  · intro e he
    unfold keepDict at he
    obtain ⟨he, hk⟩ := List.mem_filter.1 he
    obtain ⟨o, -, lo, up, rfl⟩ := h.only e he
    exact ⟨o, by simpa using hk, lo, up, rfl⟩

theorem Ends.edges_ne {obs : List String} {d : List (List String × Lim)} {l : List Axis} (h : Ends obs d l) :
    ∀ a ∈ l, a.edges ≠ [] := by
  intro a ha he
  obtain ⟨lo, up, -, h1, -⟩ := h.2 a ha
  rw [he] at h1
  simp at h1

theorem Binned.inv {s : Space} (h : Binned s) : BInv s := by
  induction h with
  | rect obs lo up s hn h =>
    unfold Space.init at h
    simp only [Args.resolve, except_bind_ok] at h
    obtain ⟨ho, hd, hb⟩ := make_ok h
    obtain ⟨ho, hne⟩ := newObs_some ho
    rw [ho] at hd hb
    obtain ⟨hd, h1, h2⟩ := limitsOf_pair_ok hd
    refine ⟨by rw [ho, hd]; exact rectOn_perObs hn hne h1 h2, ?_⟩
    intro l hl
    simp only [newBins, Except.ok.injEq] at hb
    rw [← hb] at hl
    cases hl
  | ints obs lo up ns s hn h =>
    unfold Space.init at h
    simp only [Args.resolve, except_bind_ok] at h
    obtain ⟨ho, hd, hb⟩ := make_ok h
    obtain ⟨ho, hne⟩ := newObs_some ho
    rw [ho] at hd
    obtain ⟨hd, h1, h2⟩ := limitsOf_pair_ok hd
    have hr : RectOn s.obs s.lims := by rw [ho, hd]; exact rectOn_perObs hn hne h1 h2
    refine ⟨hr, ?_⟩
    intro l hl
    simp only [newBins] at hb
    obtain ⟨r, hr', hrl⟩ := except_map_ok hb
    rw [hl, Option.some.injEq] at hrl
    subst hrl
    exact autoBins_ends (s := ⟨s.obs, s.lims, none⟩) hr hr'
  | axes obs l s hn he ho h =>
    unfold Space.init at h
    simp only [Args.resolve, except_bind_ok] at h
    obtain ⟨ho', hd, hb⟩ := make_ok h
    simp only [newBins] at hb
    obtain ⟨r, hr', hrl⟩ := except_map_ok hb
    have hobs : s.obs = l.map Axis.name := by
      rcases ho with rfl | rfl
      · cases l with
        | nil => simp [newObs] at ho'
        | cons a l => simpa [newObs] using ho'.symm
      · exact (newObs_some ho').1
    have hne : s.obs ≠ [] := by
      intro hc
      rw [hc] at hobs hd
      have hl : l = [] := by simpa using hobs.symm
      subst hl
      rcases ho with rfl | rfl <;> simp [newObs] at ho'
    obtain ⟨h1, h2⟩ := edges_inv (obs := s.obs) (by rw [hobs]; exact hn) hne hobs.symm he hd hr'
    refine ⟨h1, ?_⟩
    intro l' hl'
    rw [hl', Option.some.injEq] at hrl
    subst hrl
    exact h2
  | withObs s s' req hs hr h ih =>
    unfold Space.withObs at h
    obtain ⟨obs, hobs, h⟩ := bind_eq_ok.1 h
    obtain ⟨b, hb, h⟩ := bind_eq_ok.1 h
    have hobs' := pickObs_ok hobs
    obtain ⟨ho0, hd, hbn⟩ := make_ok h
    obtain ⟨hoo, hne⟩ := newObs_some ho0
    clear ho0
    simp only [newLims, Except.ok.injEq] at hd
    have hnd : obs.Nodup := by rw [hobs']; exact hr.filter _
    have hsub : ∀ o ∈ obs, o ∈ s.obs := by
      intro o ho
      rw [hobs'] at ho
      simpa using (List.mem_filter.1 ho).2
    have hR : RectOn s'.obs s'.lims := by
      rw [← hd, hoo]
      exact ih.rect.keep hnd hne hsub
    refine ⟨hR, ?_⟩
    intro l hl
    cases hsb : s.bins with
    | none =>
      rw [hsb] at hb
      simp only [pickAxes, Except.ok.injEq] at hb
      subst hb
      simp only [newBins, Except.ok.injEq] at hbn
      rw [← hbn] at hl
      cases hl
    | some l0 =>
      rw [hsb] at hb
      simp only [pickAxes] at hb
      obtain ⟨r, hr', rfl⟩ := except_map_ok hb
      simp only [newBins] at hbn
      obtain ⟨r', hr'', hrl⟩ := except_map_ok hbn
      rw [hl, Option.some.injEq] at hrl
      subst hrl
      obtain ⟨h1, h2⟩ := sortBins_ok hr''
      refine ⟨h1, ?_⟩
      intro a ha
      obtain ⟨-, h4⟩ := mapM_findAxis hr'
      obtain ⟨lo, up, hda, hee⟩ := (ih.ends l0 hsb).2 a (h4 a (h2 a ha))
      have hao : a.name ∈ obs := by
        rw [← hoo, ← h1]
        exact List.mem_map_of_mem ha
      refine ⟨lo, up, ?_, hee⟩
      rw [← hd, hoo, dictGet_keep hao]
      exact hda
  | withBinning s s' ns hs h ih =>
    unfold Space.withBinning at h
    obtain ⟨ho, hd, hbn⟩ := make_ok h
    obtain ⟨ho, hne⟩ := newObs_some ho
    simp only [newLims, Except.ok.injEq] at hd
    have hR : RectOn s'.obs s'.lims := by
      rw [← hd, ho]
      exact ih.rect.keep ih.rect.nodup hne (fun o ho => ho)
    refine ⟨hR, ?_⟩
    intro l hl
    simp only [newBins] at hbn
    obtain ⟨r, hr', hrl⟩ := except_map_ok hbn
    rw [hl, Option.some.injEq] at hrl
    subst hrl
    exact autoBins_ends (s := ⟨s'.obs, s'.lims, none⟩) hR hr'
  | withLimits s s' lo up hs hb h ih =>
    unfold Space.withLimits Space.binVal at h
    rw [hb] at h
    obtain ⟨ho, hd, hbn⟩ := make_ok h
    obtain ⟨ho, hne⟩ := newObs_some ho
    rw [ho] at hd
    obtain ⟨hd, h1, h2⟩ := limitsOf_pair_ok hd
    refine ⟨by rw [ho, hd]; exact rectOn_perObs ih.rect.nodup hne h1 h2, ?_⟩
    intro l hl
    simp only [Option.map_none, newBins, Except.ok.injEq] at hbn
    rw [← hbn] at hl
    cases hl
  | limitsOfBins s s' hs hb h ih =>
    obtain ⟨l0, hl0⟩ := Option.ne_none_iff_exists'.1 hb
    unfold Space.withLimits Space.binVal at h
    rw [hl0] at h
    obtain ⟨ho, hd, hbn⟩ := make_ok h
    obtain ⟨ho, hne⟩ := newObs_some ho
    simp only [Option.map_some, newLims] at hd
    simp only [Option.map_some, newBins] at hbn
    obtain ⟨r, hr', hrl⟩ := except_map_ok hbn
    have hE := ih.ends l0 hl0
    obtain ⟨h1, h2⟩ := edges_inv (obs := s'.obs) (by rw [ho]; exact ih.rect.nodup) (by rw [ho]; exact hne)
      (by rw [ho]; exact hE.1) hE.edges_ne hd hr'
    refine ⟨h1, ?_⟩
    intro l hl
    rw [hl, Option.some.injEq] at hrl
    subst hrl
    exact h2

/-- C211, the part that holds: in every history in which limits and bins come from one another, the first and last edges
of the bins of each observable are its limits.
Missing from the full claim: limits and axes given independently, new limits for a binned space, and axes in another
order than the observables, see `limits_and_axes_violated`, `new_limits_violated` and `axes_order_violated`. -/
theorem bins_cover_partial (s : Space) (h : Binned s) : Covered s := h.inv.covered

/-- The hypotheses are met: two and three bins in a rectangle, restricted to one observable. -/
example : ∃ s t : Space, Binned t ∧ s.withObs ["y"] = .ok t ∧ t.bins = some [⟨"y", [0, 1, 2, 3]⟩] ∧
    t.interval "y" = .ok (0, 3) := by
  refine ⟨⟨["x", "y"], [(["x"], .rect 0 1), (["y"], .rect 0 3)],
      some [⟨"x", [0, 1/2, 1]⟩, ⟨"y", [0, 1, 2, 3]⟩]⟩, ⟨["y"], [(["y"], .rect 0 3)], some [⟨"y", [0, 1, 2, 3]⟩]⟩,
    ?_, by decide +kernel, rfl, by decide +kernel⟩
  exact Binned.withObs ⟨["x", "y"], [(["x"], .rect 0 1), (["y"], .rect 0 3)],
      some [⟨"x", [0, 1/2, 1]⟩, ⟨"y", [0, 1, 2, 3]⟩]⟩ _ ["y"]
    (Binned.ints ["x", "y"] [0, 0] [1, 3] [2, 3] _ (by decide) (by decide +kernel)) (by decide) (by decide +kernel)

/-- C211 fails if limits and axes are given independently: bins from 0 to 5 in limits from 0 to 10 are accepted. -/
theorem limits_and_axes_violated :
    ∃ s, Space.init (some ["x"]) { limits := some (.pair [0] [10]), binning := some (.axes [⟨"x", [0, 5]⟩]) } = .ok s ∧
      s.interval "x" = .ok (0, 10) ∧ s.bins = some [⟨"x", [0, 5]⟩] ∧ ¬ Covered s := by
  refine ⟨⟨["x"], [(["x"], .rect 0 10)], some [⟨"x", [0, 5]⟩]⟩, by decide +kernel, by decide +kernel, rfl, ?_⟩
  intro h
  obtain ⟨lo, up, h1, -, h3⟩ := (h _ rfl).2 ⟨"x", [0, 5]⟩ (by simp)
  have h1' : (Except.ok ((0 : Rat), (10 : Rat)) : Except Err (Rat × Rat)) = .ok (lo, up) := h1
  simp only [Except.ok.injEq, Prod.mk.injEq] at h1'
  simp only [List.getLast?_cons_cons, List.getLast?_singleton, Option.some.injEq] at h3
  rw [← h1'.2] at h3
  exact absurd h3 (by decide +kernel)

/-- C211 fails for new limits of a binned space: `with_limits` keeps the old bins. -/
theorem new_limits_violated :
    ∃ s t, Space.init (some ["x"]) { limits := some (.pair [0] [10]), binning := some (.int 2) } = .ok s ∧
      s.withLimits (some (.pair [0] [4])) none = .ok t ∧
      t.interval "x" = .ok (0, 4) ∧ t.bins = some [⟨"x", [0, 5, 10]⟩] :=
  ⟨⟨["x"], [(["x"], .rect 0 10)], some [⟨"x", [0, 5, 10]⟩]⟩, ⟨["x"], [(["x"], .rect 0 4)], some [⟨"x", [0, 5, 10]⟩]⟩,
    by decide +kernel, by decide +kernel, by decide +kernel, rfl⟩

/-- C211 fails for axes in another order than the observables: the limits are taken in the order of the axes and given to
the observables in their own order, so that `x` gets the limits of `y`. -/
theorem axes_order_violated :
    ∃ s, Space.init (some ["x", "y"]) { binning := some (.axes [⟨"y", [0, 10]⟩, ⟨"x", [-1, 1]⟩]) } = .ok s ∧
      s.interval "x" = .ok (0, 10) ∧ s.interval "y" = .ok (-1, 1) ∧
      s.bins = some [⟨"x", [-1, 1]⟩, ⟨"y", [0, 10]⟩] :=
  ⟨⟨["x", "y"], [(["x"], .rect 0 10), (["y"], .rect (-1) 1)], some [⟨"x", [-1, 1]⟩, ⟨"y", [0, 10]⟩]⟩,
    by decide +kernel, by decide +kernel, by decide +kernel, rfl⟩

/-- C214, the part that holds: `with_obs` keeps of the binning exactly the axes of the observables of the new space, in
their order.
Missing from the full claim: `get_subspace`, see `subspace_binning_violated`. -/
theorem with_obs_keeps_bins_partial (s s' : Space) (l : List Axis) (req : List String) (hb : s.bins = some l)
    (h : s.withObs req = .ok s') :
    s'.obs = req.filter (· ∈ s.obs) ∧ ∃ l', s'.bins = some l' ∧ l'.map Axis.name = s'.obs ∧ ∀ a ∈ l', a ∈ l := by
  unfold Space.withObs at h
  obtain ⟨obs, hobs, h⟩ := bind_eq_ok.1 h
  obtain ⟨b, hb', h⟩ := bind_eq_ok.1 h
  obtain ⟨ho0, -, hbn⟩ := make_ok h
  obtain ⟨hoo, -⟩ := newObs_some ho0
  refine ⟨by rw [hoo]; exact pickObs_ok hobs, ?_⟩
  rw [hb] at hb'
  simp only [pickAxes] at hb'
  obtain ⟨r, hr', rfl⟩ := except_map_ok hb'
  simp only [newBins] at hbn
  obtain ⟨r', hr'', hrl⟩ := except_map_ok hbn
  obtain ⟨h1, h2⟩ := sortBins_ok hr''
  obtain ⟨-, h4⟩ := mapM_findAxis hr'
  exact ⟨r', hrl.symm, h1, fun a ha => h4 a (h2 a ha)⟩

example : ∃ s t : Space, s.withObs ["y"] = .ok t ∧ s.bins = some [⟨"x", [0, 1]⟩, ⟨"y", [0, 1, 2]⟩] ∧
    t.bins = some [⟨"y", [0, 1, 2]⟩] :=
  ⟨⟨["x", "y"], [(["x"], .rect 0 1), (["y"], .rect 0 2)], some [⟨"x", [0, 1]⟩, ⟨"y", [0, 1, 2]⟩]⟩,
    ⟨["y"], [(["y"], .rect 0 2)], some [⟨"y", [0, 1, 2]⟩]⟩, by decide +kernel, rfl, rfl⟩

/-! ## C212: `convert_to_space` -/

/-- C212.  One observable and limits give the same as `Space`; nothing gives nothing. -/
theorem convert_one (o : String) (v : Val) (ow : Bool) :
    convertToSpace (some (.obs [o])) (some (.limits v)) ow =
      (Space.init (some [o]) { limits := some v }).map some ∧
    convertToSpace none none ow = .ok none := by
  refine ⟨?_, rfl⟩
  unfold convertToSpace
  dsimp only
  have hi : Space.init (some [o]) { limits := some v } = Space.make (some [o]) (.val (some v)) none none := rfl
  rw [hi]
  cases hm : Space.make (some [o]) (.val (some v)) none none with
  | error e => rfl
  | ok s =>
    have hs := (newObs_some (make_ok hm).1).1
    rw [except_bind_ok, hs]
    simp [Except.map, except_pure]

/-- C212.  Limits for several observables at once are refused, and `False` or no limits are accepted. -/
theorem convert_several (obs : List String) (lo up : List Rat) (ow : Bool) (s : Space) (hl : 1 < obs.length)
    (h : Space.init (some obs) { limits := some (.pair lo up) } = .ok s) :
    convertToSpace (some (.obs obs)) (some (.limits (.pair lo up))) ow = .error .limitsUnderdefined := by
  unfold convertToSpace
  dsimp only
  have hi : Space.init (some obs) { limits := some (.pair lo up) } =
    Space.make (some obs) (.val (some (.pair lo up))) none none := rfl
  rw [hi] at h
  rw [h, except_bind_ok]
  have hs := init_rect (hi.trans h)
  have hacc := (rectangle_accepted obs lo up).1 ⟨s, hi.trans h⟩
  have hlim : s.hasLimits = true := by
    subst hs
    match obs, lo, up, hacc with
    | a :: l, x :: lo, y :: up, hacc =>
      have hp : perObs (a :: l) (x :: lo) (y :: up) = ([a], .rect x y) :: perObs l lo up := rfl
      unfold Space.hasLimits Space.limitsAreSet Space.limitsAreFalse
      dsimp only
      rw [Bool.and_eq_true]
      constructor
      · rw [List.all_eq_true]
        intro e he
        obtain ⟨o, -, a, b, rfl⟩ := perObs_mem he
        rfl
      · rw [hp]
        rfl
  have ho : s.obs = obs := by rw [hs]
  rw [hlim, ho]
  simp [hl]
  rfl

/-- C212.  A space stays as it is if no limits are given, or if it has limits already and they may not be overwritten. -/
theorem convert_space_kept (s : Space) (l : Option Given) (ow : Bool) (hl : ∀ o, l ≠ some (.obs o))
    (h : l = none ∨ (ow = false ∧ s.limitsAreSet = true)) :
    convertToSpace (some (.space s)) l ow = .ok (some s) := by
  rcases h with rfl | ⟨rfl, hs⟩
  · rfl
  · cases l with
    | none => rfl
    | some g =>
      cases g with
      | obs o => exact absurd rfl (hl o)
      | space t => simp [convertToSpace, hs]
      | limits v => simp [convertToSpace, hs]

/-- C212.  A space whose limits are not set or may be overwritten keeps its observables and gets the rectangle given. -/
theorem convert_space_new (s r : Space) (lo up : List Rat) (ow : Bool) (h : ow = true ∨ s.limitsAreSet = false)
    (hr : convertToSpace (some (.space s)) (some (.limits (.pair lo up))) ow = .ok (some r)) :
    r.obs = s.obs ∧ ∀ (sem : Nat → List Rat → Bool) (p : String → Rat), r.inside sem (s.obs.map p) =
      .ok ((List.zip s.obs (lo.zip up)).all (fun q => decide (q.2.1 ≤ p q.1) && decide (p q.1 ≤ q.2.2))) := by
  unfold convertToSpace at hr
  dsimp only at hr
  rw [if_pos (by rcases h with h | h <;> simp [h])] at hr
  obtain ⟨r', hr', hrr⟩ := except_map_ok hr
  simp only [Option.some.injEq] at hrr
  subst hrr
  unfold Space.withLimits at hr'
  obtain ⟨ho, hd, hb⟩ := make_ok hr'
  obtain ⟨ho, hne⟩ := newObs_some ho
  refine ⟨ho, ?_⟩
  intro sem p
  rw [ho] at hd
  simp only [newLims] at hd
  obtain ⟨hd', h1, h2⟩ := limitsOf_pair_ok hd
  have hmk : Space.init (some s.obs) { limits := some (.pair lo up) } = .ok ⟨s.obs, perObs s.obs lo up, none⟩ := by
    have : Space.init (some s.obs) { limits := some (.pair lo up) } =
      Space.make (some s.obs) (.val (some (.pair lo up))) none none := rfl
    rw [this]
    unfold Space.make
    have hno : newObs (some s.obs) none = .ok s.obs := by
      cases hso : s.obs with
      | nil => exact absurd hso hne
      | cons a l => rfl
    rw [hno, except_bind_ok]
    simp only [newLims]
    rw [hd, except_bind_ok, hd']
    rfl
  have := (limits_given s.obs lo up _ hmk sem p).2
  rw [← this]
  unfold Space.inside
  dsimp only
  rw [ho, hd']

/-- C212, the part that holds for two spaces: with other observables they are refused.
Missing from the full claim: observables and a space as limits, see `obs_ignored_violated`. -/
theorem convert_two_spaces_partial (s t : Space) (ow : Bool) (h : ow = true ∨ s.limitsAreSet = false)
    (ho : t.obs ≠ s.obs) : convertToSpace (some (.space s)) (some (.space t)) ow = .error .intentionAmbiguous := by
  unfold convertToSpace
  dsimp only
  rw [if_pos (by rcases h with h | h <;> simp [h]), if_pos ho]

/-- C212.  With the same observables, the limits of another space are as good as its rectangle. -/
theorem convert_two_spaces_same (s t : Space) (lo up : List Rat) (hn : s.obs.Nodup)
    (ht : Space.init (some s.obs) { limits := some (.pair lo up) } = .ok t) (ow : Bool)
    (h : ow = true ∨ s.limitsAreSet = false) :
    convertToSpace (some (.space s)) (some (.space t)) ow = convertToSpace (some (.space s)) (some (.limits (.pair lo up))) ow := by
  have hacc := (rectangle_accepted s.obs lo up).1 ⟨t, ht⟩
  obtain ⟨hne, h1, h2, -⟩ := hacc
  have hte := init_rect ht
  have hto : t.obs = s.obs := by rw [hte]
  have hR : RectOn t.obs t.lims := by
    rw [hte]
    exact rectOn_perObs hn hne h1 h2
  have hf : t.limitsAreFalse = false := by
    obtain ⟨o, ho⟩ := List.exists_mem_of_ne_nil _ hne
    obtain ⟨a, b, hd⟩ := hR.find o (by rw [hto]; exact ho)
    unfold Space.limitsAreFalse
    rw [List.all_eq_false]
    have hmem : ∃ e ∈ t.lims, e.2 = Lim.rect a b := by
      unfold dictGet at hd
      rw [Option.map_eq_some_iff] at hd
      obtain ⟨e, he, hee⟩ := hd
      exact ⟨e, List.mem_of_find?_eq_some he, hee⟩
    obtain ⟨e, he, hee⟩ := hmem
    exact ⟨e, he, by simp [hee]⟩
  have hrect : t.hasRectLimits = true := by
    unfold Space.hasRectLimits
    rw [Bool.and_eq_true]
    constructor
    · rw [List.all_eq_true]
      intro e he
      obtain ⟨o, _, lo, up, rfl⟩ := hR.only e he
      rfl
    · obtain ⟨o, ho⟩ := List.exists_mem_of_ne_nil _ hne
      obtain ⟨a, b, hd⟩ := hR.find o (by rw [hto]; exact ho)
      rcases hl : t.lims with _ | ⟨e, l⟩
      · rw [hl] at hd; simp [dictGet] at hd
      · rfl
  have hmap : ∀ (obs : List String) (lo up : List Rat), lo.length = obs.length → up.length = obs.length →
      (∀ (i : Nat) (o : String) (a b : Rat), obs[i]? = some o → lo[i]? = some a → up[i]? = some b → t.interval o = .ok (a, b)) →
      obs.mapM t.interval = .ok (lo.zip up) := by
    intro obs
    induction obs with
    | nil => intro lo up h1 h2 _; cases lo <;> cases up <;> simp_all [except_pure]
    | cons o obs ih =>
      intro lo up h1 h2 hall
      cases lo with
      | nil => simp at h1
      | cons a lo =>
        cases up with
        | nil => simp at h2
        | cons b up =>
          rw [List.mapM_cons, hall 0 o a b rfl rfl rfl, except_bind_ok,
            ih lo up (by simpa using h1) (by simpa using h2) (fun i o' a' b' e1 e2 e3 => hall (i + 1) o' a' b' (by simpa using e1)
              (by simpa using e2) (by simpa using e3)), except_bind_ok]
          rfl
  have hv : spaceLimits t = .ok (.pair lo up) := by
    unfold spaceLimits
    rw [hf, hrect]
    simp only [Bool.false_eq_true, if_false, Bool.not_true, Bool.and_false]
    rw [hmap t.obs lo up (by rw [hto]; exact h1) (by rw [hto]; exact h2), except_bind_ok]
    · rw [List.map_fst_zip (by omega), List.map_snd_zip (by omega)]
      rfl
    · intro i o a b e1 e2 e3
      refine hR.interval ?_
      rw [hte]
      exact dictGet_perObs s.obs lo up hn i o a b (by rw [← hto]; exact e1) e2 e3
  unfold convertToSpace
  dsimp only
  have hc : (ow || !s.limitsAreSet) = true := by rcases h with h | h <;> simp [h]
  rw [if_pos hc, if_pos hc, if_neg (by simp [hto]), hv, except_bind_ok]
  rcases s.withLimits (some (.pair lo up)) none with e | r <;> rfl

/-- C212 fails for two spaces if the limits are a function: they are refused. -/
theorem function_limits_violated (s t : Space) (f : Nat) (lo up : List Rat)
    (ht : Space.init (some s.obs) { limits := some (.fn f), rectLimits := some (.pair lo up) } = .ok t) (ow : Bool)
    (h : ow = true ∨ s.limitsAreSet = false) :
    convertToSpace (some (.space s)) (some (.space t)) ow = .error .runtimeError := by
  obtain ⟨-, hte⟩ := init_fn ht
  have hv : spaceLimits t = .error .runtimeError := by
    rw [hte]
    simp [spaceLimits, Space.limitsAreFalse, Space.hasLimits, Space.limitsAreSet, Space.hasRectLimits, Lim.isRect]
  unfold convertToSpace
  dsimp only
  have hc : (ow || !s.limitsAreSet) = true := by rcases h with h | h <;> simp [h]
  rw [if_pos hc, if_neg (by simp [hte]), hv]
  rfl

example : ∃ t, Space.init (some ["x"]) { limits := some (.fn 0), rectLimits := some (.pair [0] [1]) } = .ok t :=
  ⟨⟨["x"], [(["x"], .fn 0 [0] [1])], none⟩, by decide +kernel⟩

example : ∃ s, Space.init (some ["x"]) {} = .ok s ∧ s.limitsAreSet = false ∧
    convertToSpace (some (.space s)) (some (.limits (.pair [0] [1]))) false =
      .ok (some ⟨["x"], [(["x"], .rect 0 1)], none⟩) ∧
    convertToSpace (some (.obs ["x"])) (some (.limits (.pair [0] [1]))) false =
      .ok (some ⟨["x"], [(["x"], .rect 0 1)], none⟩) ∧
    convertToSpace (some (.obs ["x", "y"])) (some (.limits (.pair [0, 0] [1, 1]))) false =
      .error .limitsUnderdefined :=
  ⟨⟨["x"], [(["x"], .unset)], none⟩, by decide +kernel, by decide +kernel, by decide +kernel, by decide +kernel,
    by decide +kernel⟩

/-- C212 fails for observables and a space as limits: the observables are not looked at, asking for `x` with limits in
`y` gives a space in `y`. -/
theorem obs_ignored_violated :
    ∃ t, Space.init (some ["y"]) { limits := some (.pair [0] [1]) } = .ok t ∧
      convertToSpace (some (.obs ["x"])) (some (.space t)) true = .ok (some t) ∧ t.obs = ["y"] :=
  ⟨⟨["y"], [(["y"], .rect 0 1)], none⟩, by decide +kernel, by decide +kernel, rfl⟩

end Zfit.Lims
