import Verif.Args.Compose
import Verif.Param.GraphProps

/-!
# Properties of composed and complex parameters

* C113: `composed_positional`, `composed_by_name`, `composed_whole`, `composed_nothing`, `composed_undecided`,
  `composed_explicit`
* C114: `composed_list_callable_iff_partial`; `single_entry_dict_violated`, `star_args_violated`
* C115: `composed_reports_partial`, `composed_depends_only_partial`; `no_argument_list_violated`, `conj_params_violated`
* C116: `cartesian_value`, `polar_value`, `conj_value`, `polar_mod_arg`, `polar_of_parts`
* C117: `complex_floating_partial`; `complex_floating_violated`
-/

namespace Zfit.Args

open Zfit Zfit.Par

variable {R α : Type}

/-! ### Which call `func` gets -/

private theorem numbered_map (l : List Pr) (g : Pr → α) : (numbered l).map (fun p => g p.2) = l.map g := by
  unfold numbered
  rw [List.map_map]
  have : ((fun p : String × Pr => g p.2) ∘ fun p : ℕ × Pr => ("param_" ++ toString p.1, p.2)) = g ∘ Prod.snd := rfl
  rw [this, ← List.map_map, List.map_snd_zip]
  simp

private theorem compose_list {id : Nat} {name : String} {f : Func R} {l : List Pr} {u : Option Bool} {st : Style}
    (h : decideStyle u f.sig l.length = .ok st) :
    compose id name f (.list l) u = .ok ⟨id, name, if st = .nothing then [] else numbered l,
      fun ρ => f.call ρ (listCall st ρ (if st = .nothing then [] else numbered l))⟩ := by
  simp only [compose, h]
  rfl

private theorem compose_dict {id : Nat} {name : String} {f : Func R} {d : List (String × Pr)} {u : Option Bool} {st : Style}
    (h : decideStyle u f.sig d.length = .ok st) :
    compose id name f (.dict d) u = .ok ⟨id, name, d, fun ρ => f.call ρ (dictCall st ρ d)⟩ := by
  simp only [compose, h]
  rfl

/-- C113: a list of parameters for a function with enough arguments, the remaining ones having defaults: the function is
called with the current values of the parameters, by position, in the order of the list. -/
theorem composed_positional (id : Nat) (name : String) (f : Func R) (l : List Pr) (args : List (String × Bool))
    (hs : f.sig = ⟨args, none, none⟩) (hp : "params" ∉ args.map (·.1)) (hl : l.length ≤ args.length)
    (hd : ∀ a ∈ args.drop l.length, a.2 = true) (h1 : args.length = 1 → l.length ≤ 1) :
    ∃ c, compose id name f (.list l) none = .ok c ∧ c.name = name ∧ c.params.map (·.2) = l ∧
      ∀ ρ, c.value ρ = f.body ρ ⟨l.map (fun p => .one (p.val ρ)), []⟩ := by
  have hst : decideStyle none f.sig l.length = .ok .unpack := by
    unfold decideStyle
    have hn : f.sig.names = args.map (·.1) := by rw [hs]; simp [Sig.names]
    rw [hn]
    simp only [List.length_map]
    rw [if_neg (by rintro (⟨h, h'⟩ | h); exacts [absurd (h1 h) (by omega), hp h]), if_pos hl]
  refine ⟨_, compose_list hst, rfl, ?_, ?_⟩
  · have := numbered_map l (fun p => p)
    simpa using this
  · intro ρ
    have hc : listCall .unpack ρ (numbered l) = ⟨l.map (fun p => .one (p.val ρ)), []⟩ := by
      unfold listCall
      simp only
      rw [numbered_map l (fun p => Arg.one (p.val ρ))]
    have ha : f.sig.accepts ⟨l.map (fun p => .one (p.val ρ)), []⟩ = true := by
      rw [hs]
      unfold Sig.accepts
      simp only [List.length_map, List.all_nil, Bool.and_true, List.map_nil, List.not_mem_nil, decide_false,
        Bool.or_false, Option.isSome_none, Bool.and_eq_true, decide_eq_true_eq, List.all_eq_true]
      exact ⟨hl, hd⟩
    show f.call ρ (listCall .unpack ρ (if Style.unpack = .nothing then [] else numbered l)) = _
    rw [if_neg (by decide), hc]
    exact if_pos ha

example : ∃ c, compose 0 "c" (⟨⟨[("a", false), ("b", false)], none, none⟩,
      fun _ c => match c.pos with | [.one x, .one y] => .ok (x - y) | _ => .error .typeError⟩ : Func ℝ)
    (.list [⟨.node ⟨1, "x", .indep, true⟩ [], fun ρ => ρ 1⟩, ⟨.node ⟨2, "y", .indep, true⟩ [], fun ρ => ρ 2⟩]) none
      = .ok c ∧ ∀ ρ, c.value ρ = .ok (ρ 1 - ρ 2) := by
  obtain ⟨c, h, -, -, hv⟩ := composed_positional 0 "c" (⟨⟨[("a", false), ("b", false)], none, none⟩,
      fun _ c => match c.pos with | [.one x, .one y] => .ok (x - y) | _ => .error .typeError⟩ : Func ℝ)
    [⟨.node ⟨1, "x", .indep, true⟩ [], fun ρ => ρ 1⟩, ⟨.node ⟨2, "y", .indep, true⟩ [], fun ρ => ρ 2⟩]
    [("a", false), ("b", false)] rfl (by decide) (by decide) (by simp) (by simp)
  exact ⟨c, h, fun ρ => hv ρ⟩

/-- C113: a mapping for a function that has arguments of these names, the remaining ones having defaults: the function is
called with every value under its own name. -/
theorem composed_by_name (id : Nat) (name : String) (f : Func R) (d : List (String × Pr)) (args : List (String × Bool))
    (hs : f.sig = ⟨args, none, none⟩) (hp : "params" ∉ args.map (·.1)) (hk : (d.map (·.1)).Nodup)
    (hsub : ∀ k ∈ d.map (·.1), k ∈ args.map (·.1)) (hd : ∀ a ∈ args, a.1 ∉ d.map (·.1) → a.2 = true) :
    ∃ c, compose id name f (.dict d) none = .ok c ∧ c.name = name ∧ c.params = d ∧
      ∀ ρ, c.value ρ = f.body ρ ⟨[], d.map (fun p => (p.1, .one (p.2.val ρ)))⟩ := by
  have hl : d.length ≤ args.length := by
    have := (hk.subperm (fun k hk' => hsub k hk')).length_le
    simpa using this
  have hst : decideStyle none f.sig d.length = .ok .unpack := by
    unfold decideStyle
    have hn : f.sig.names = args.map (·.1) := by rw [hs]; simp [Sig.names]
    rw [hn]
    simp only [List.length_map]
    rw [if_neg (by rintro (⟨h, h'⟩ | h); exacts [by omega, hp h]), if_pos hl]
  refine ⟨_, compose_dict hst, rfl, rfl, ?_⟩
  intro ρ
  show f.call ρ (dictCall .unpack ρ d) = _
  have ha : f.sig.accepts ⟨[], d.map (fun p => (p.1, .one (p.2.val ρ)))⟩ = true := by
    rw [hs]
    unfold Sig.accepts
    simp only [List.length_nil, List.drop_zero, Bool.and_eq_true, List.all_eq_true, Bool.or_eq_true, decide_eq_true_eq]
    refine ⟨⟨Or.inl (Nat.zero_le _), ?_⟩, ?_⟩
    · intro k hk'
      obtain ⟨p, hp', rfl⟩ := List.mem_map.1 hk'
      exact Or.inl (hsub _ (List.mem_map.2 ⟨p, hp', rfl⟩))
    · intro a ha'
      by_cases hin : a.1 ∈ d.map (·.1)
      · right
        rw [List.map_map]
        exact hin
      · exact Or.inl (hd a ha' hin)
  exact if_pos ha

example : ∃ c, compose 0 "c" (⟨⟨[("a", false), ("b", false)], none, none⟩,
      fun _ c => match dictGet c.kw "a", dictGet c.kw "b" with
        | some (.one x), some (.one y) => .ok (x - y) | _, _ => .error .typeError⟩ : Func ℝ)
    (.dict [("b", ⟨.node ⟨1, "x", .indep, true⟩ [], fun ρ => ρ 1⟩), ("a", ⟨.node ⟨2, "y", .indep, true⟩ [], fun ρ => ρ 2⟩)])
      none = .ok c ∧ ∀ ρ, c.value ρ = .ok (ρ 2 - ρ 1) := by
  obtain ⟨c, h, -, -, hv⟩ := composed_by_name 0 "c" (⟨⟨[("a", false), ("b", false)], none, none⟩,
      fun _ c => match dictGet c.kw "a", dictGet c.kw "b" with
        | some (.one x), some (.one y) => .ok (x - y) | _, _ => .error .typeError⟩ : Func ℝ)
    [("b", ⟨.node ⟨1, "x", .indep, true⟩ [], fun ρ => ρ 1⟩), ("a", ⟨.node ⟨2, "y", .indep, true⟩ [], fun ρ => ρ 2⟩)]
    [("a", false), ("b", false)] rfl (by decide) (by decide) (by decide) (by decide)
  exact ⟨c, h, fun ρ => hv ρ⟩

/-- C113: a mapping for a function with further keywords, `f(a, ..., **kw)`: every value reaches the function under its own
name, also those that are not arguments of it. -/
theorem composed_star_kwargs (id : Nat) (name kw : String) (f : Func R) (d : List (String × Pr))
    (args : List (String × Bool)) (hs : f.sig = ⟨args, none, some kw⟩) (hp : "params" ∉ args.map (·.1) ∧ kw ≠ "params")
    (hl : d.length ≤ args.length + 1) (hd : ∀ a ∈ args, a.1 ∉ d.map (·.1) → a.2 = true) (h1 : args = [] → d.length ≤ 1) :
    ∃ c, compose id name f (.dict d) none = .ok c ∧ c.name = name ∧ c.params = d ∧
      ∀ ρ, c.value ρ = f.body ρ ⟨[], d.map (fun p => (p.1, .one (p.2.val ρ)))⟩ := by
  have hst : decideStyle none f.sig d.length = .ok .unpack := by
    unfold decideStyle
    have hn : f.sig.names = args.map (·.1) ++ [kw] := by rw [hs]; simp [Sig.names]
    rw [hn]
    simp only [List.length_append, List.length_map, List.length_cons, List.length_nil, List.mem_append, List.mem_singleton]
    rw [if_neg ?_, if_pos hl]
    rintro (⟨h, h'⟩ | h | h)
    · have := h1 (List.length_eq_zero_iff.1 (by omega))
      omega
    · exact hp.1 h
    · exact hp.2 h.symm
  refine ⟨_, compose_dict hst, rfl, rfl, ?_⟩
  intro ρ
  show f.call ρ (dictCall .unpack ρ d) = _
  have ha : f.sig.accepts ⟨[], d.map (fun p => (p.1, .one (p.2.val ρ)))⟩ = true := by
    rw [hs]
    unfold Sig.accepts
    simp only [List.length_nil, List.drop_zero, Bool.and_eq_true, List.all_eq_true, Bool.or_eq_true, decide_eq_true_eq,
      Option.isSome_some, true_and, Bool.not_eq_true', decide_eq_false_iff_not]
    refine ⟨⟨Or.inl (Nat.zero_le _), fun k _ => em _⟩, ?_⟩
    intro a ha'
    by_cases hin : a.1 ∈ d.map (·.1)
    · right
      rw [List.map_map]
      exact hin
    · exact Or.inl (hd a ha' hin)
  exact if_pos ha

example : ∃ c, compose 0 "c" (⟨⟨[("a", false)], none, some "kw"⟩,
      fun _ c => match dictGet c.kw "a", dictGet c.kw "b" with
        | some (.one x), some (.one y) => .ok (x - y) | _, _ => .error .typeError⟩ : Func ℝ)
    (.dict [("b", ⟨.node ⟨1, "x", .indep, true⟩ [], fun ρ => ρ 1⟩), ("a", ⟨.node ⟨2, "y", .indep, true⟩ [], fun ρ => ρ 2⟩)])
      none = .ok c ∧ ∀ ρ, c.value ρ = .ok (ρ 2 - ρ 1) := by
  obtain ⟨c, h, -, -, hv⟩ := composed_star_kwargs 0 "c" "kw" (⟨⟨[("a", false)], none, some "kw"⟩,
      fun _ c => match dictGet c.kw "a", dictGet c.kw "b" with
        | some (.one x), some (.one y) => .ok (x - y) | _, _ => .error .typeError⟩ : Func ℝ)
    [("b", ⟨.node ⟨1, "x", .indep, true⟩ [], fun ρ => ρ 1⟩), ("a", ⟨.node ⟨2, "y", .indep, true⟩ [], fun ρ => ρ 2⟩)]
    [("a", false)] rfl (by decide) (by decide) (by decide) (by decide)
  exact ⟨c, h, fun ρ => hv ρ⟩

/-- C113: several parameters for a function of one argument (or any for one with the argument `params`): the function
gets all of them as one tuple or `dict`. -/
theorem composed_whole (id : Nat) (name : String) (f : Func R) (a : String) (hs : f.sig = ⟨[(a, false)], none, none⟩)
    (g : Given) (hg : g ≠ .none) (h : 1 < g.length ∨ a = "params") :
    ∃ c, compose id name f g none = .ok c ∧
      ∀ ρ, c.value ρ = match g with
        | .dict d => f.body ρ ⟨[.dict (d.map (fun p => (p.1, p.2.val ρ)))], []⟩
        | .list l => f.body ρ ⟨[.tuple (l.map (fun p => p.val ρ))], []⟩
        | .none => .error .breakingApiChange := by
  have hst : ∀ n, 1 < n ∨ a = "params" → decideStyle none f.sig n = .ok .whole := by
    intro n hn
    unfold decideStyle
    rw [hs]
    simp only [Sig.names, List.map_cons, List.map_nil, Option.toList_none, List.append_nil, List.length_singleton,
      List.mem_singleton, true_and]
    rw [if_pos (hn.imp (fun h => h) Eq.symm)]
  have hacc : ∀ x, f.sig.accepts ⟨[x], []⟩ = true := by
    intro x
    rw [hs]
    simp [Sig.accepts]
  cases g with
  | none => exact absurd rfl hg
  | dict d =>
    refine ⟨_, compose_dict (hst d.length h), ?_⟩
    intro ρ
    exact if_pos (hacc _)
  | list l =>
    refine ⟨_, compose_list (hst l.length h), ?_⟩
    intro ρ
    show f.call ρ (listCall .whole ρ (numbered l)) = _
    have hc : listCall .whole ρ (numbered l) = ⟨[.tuple (l.map (fun p => p.val ρ))], []⟩ := by
      unfold listCall
      simp only
      rw [numbered_map l (fun p => p.val ρ)]
    rw [hc]
    exact if_pos (hacc _)

example : Given.length (.list [⟨.node ⟨1, "x", .indep, true⟩ [], fun ρ => ρ 1⟩, ⟨.node ⟨2, "y", .indep, true⟩ [], fun ρ => ρ 2⟩])
    = 2 := rfl

/-- C113: a function without arguments is called with nothing. -/
theorem composed_nothing (id : Nat) (name : String) (f : Func R) (hs : f.sig = ⟨[], none, none⟩)
    (g : Given) (hg : g ≠ .none) :
    ∃ c, compose id name f g none = .ok c ∧ ∀ ρ, c.value ρ = f.body ρ ⟨[], []⟩ := by
  have hacc : f.sig.accepts ⟨[], []⟩ = true := by rw [hs]; rfl
  have hst : ∀ n, decideStyle none f.sig n = .ok (if n = 0 then .unpack else .nothing) := by
    intro n
    unfold decideStyle
    rw [hs]
    simp only [Sig.names, List.map_nil, Option.toList_none, List.append_nil, List.length_nil, Nat.zero_ne_one, false_and,
      List.not_mem_nil, or_self, if_false, Nat.le_zero, if_true]
    split <;> rfl
  cases g with
  | none => exact absurd rfl hg
  | dict d =>
    refine ⟨_, compose_dict (hst d.length), ?_⟩
    intro ρ
    cases d with
    | nil => exact if_pos hacc
    | cons p d => exact if_pos hacc
  | list l =>
    refine ⟨_, compose_list (hst l.length), ?_⟩
    intro ρ
    cases l with
    | nil => exact if_pos hacc
    | cons p l => exact if_pos hacc

/-- C113: a function with more than one argument, but fewer than parameters, and none called `params`: it cannot be
decided how to call it, creating the parameter raises. -/
theorem composed_undecided (id : Nat) (name : String) (f : Func R) (g : Given) (hg : g ≠ .none)
    (hp : "params" ∉ f.sig.names) (h1 : 1 < f.sig.names.length) (hn : f.sig.names.length < g.length) :
    compose id name f g none = .error .valueError := by
  have hst : decideStyle none f.sig g.length = .error .valueError := by
    unfold decideStyle
    simp only
    rw [if_neg (by rintro (⟨h, -⟩ | h); exacts [by omega, hp h]), if_neg (by omega), if_neg (by omega)]
  cases g with
  | none => exact absurd rfl hg
  | dict d => simp only [Given.length] at hst; simp only [compose, hst]; rfl
  | list l => simp only [Given.length] at hst; simp only [compose, hst]; rfl

/-- C113: with `unpack_params` given, the function is called that way, whatever its signature. -/
theorem composed_explicit (id : Nat) (name : String) (f : Func R) (unpack : Bool) (d : List (String × Pr)) (l : List Pr) :
    (∃ c, compose id name f (.dict d) (some unpack) = .ok c ∧ ∀ ρ, c.value ρ = f.call ρ (if unpack
      then ⟨[], d.map (fun p => (p.1, .one (p.2.val ρ)))⟩ else ⟨[.dict (d.map (fun p => (p.1, p.2.val ρ)))], []⟩)) ∧
    ∃ c, compose id name f (.list l) (some unpack) = .ok c ∧ ∀ ρ, c.value ρ = f.call ρ (if unpack
      then ⟨l.map (fun p => .one (p.val ρ)), []⟩ else ⟨[.tuple (l.map (fun p => p.val ρ))], []⟩) := by
  constructor
  · cases unpack <;> exact ⟨_, rfl, fun ρ => rfl⟩
  · cases unpack
    · refine ⟨_, rfl, fun ρ => ?_⟩
      show f.call ρ (listCall .whole ρ (numbered l)) = _
      unfold listCall
      simp only
      rw [numbered_map l (fun p => p.val ρ)]
      rfl
    · refine ⟨_, rfl, fun ρ => ?_⟩
      show f.call ρ (listCall .unpack ρ (numbered l)) = _
      unfold listCall
      simp only
      rw [numbered_map l (fun p => Arg.one (p.val ρ))]
      rfl

/-! ### Can it be called? -/

/-- C114, for a list of parameters and a function without defaults and starred arguments: the parameter is created and
can be evaluated exactly if the function has as many arguments as there are parameters, or one argument for several
parameters, or the only argument `params`, or no argument at all.  What is missing: a function with more arguments than
parameters is accepted at creation although no call is possible. -/
theorem composed_list_callable_iff_partial (id : Nat) (name : String) (names : List String)
    (body : Store → Call → Except Err R) (hb : ∀ ρ c, ∃ r, body ρ c = .ok r) (l : List Pr) :
    (∃ c, compose id name ⟨⟨names.map (fun n => (n, false)), none, none⟩, body⟩ (.list l) none = .ok c ∧
      ∀ ρ, ∃ r, c.value ρ = .ok r) ↔
    (names.length = l.length ∧ "params" ∉ names) ∨ (names.length = 1 ∧ 1 < l.length) ∨ names = ["params"] ∨ names = [] := by
  have hn : Sig.names ⟨names.map (fun n => (n, false)), none, none⟩ = names := by
    simp [Sig.names, List.map_map, Function.comp_def]
  have hcall : ∀ c ρ, (∃ r, Func.call ⟨⟨names.map (fun n => (n, false)), none, none⟩, body⟩ ρ c = .ok r) ↔
      Sig.accepts ⟨names.map (fun n => (n, false)), none, none⟩ c = true := by
    intro c ρ
    unfold Func.call
    simp only
    split
    · next h => simp only [h, iff_true]; exact hb ρ c
    · next h => simp [h]
  have hpos : ∀ xs : List Arg, Sig.accepts ⟨names.map (fun n => (n, false)), none, none⟩ ⟨xs, []⟩ = true ↔
      names.length = xs.length := by
    intro xs
    unfold Sig.accepts
    simp only [List.length_map, Option.isSome_none, Bool.or_false, List.all_nil, Bool.and_true, List.map_nil,
      List.not_mem_nil, decide_false, Bool.and_eq_true, decide_eq_true_eq, List.all_eq_true]
    constructor
    · rintro ⟨h, h'⟩
      by_contra hne
      have : 0 < ((names.map (fun n => (n, false))).drop xs.length).length := by simp; omega
      obtain ⟨a, ha⟩ := List.exists_mem_of_length_pos this
      have h2 := h' a ha
      obtain ⟨n, -, rfl⟩ := List.mem_map.1 (List.mem_of_mem_drop ha)
      cases h2
    · intro h
      refine ⟨by omega, ?_⟩
      intro a ha
      rw [List.drop_eq_nil_of_le (by simp; omega)] at ha
      cases ha
  have hnum : (numbered l).length = l.length := by simp [numbered]
  constructor
  · rintro ⟨c, hc, hv⟩
    have hv0 := hv (fun _ => 0)
    unfold compose at hc
    simp only [decideStyle, hn] at hc
    split at hc
    · next hw =>
      cases hc
      have := (hcall _ _).1 hv0
      rw [show listCall .whole (fun _ => 0) (if Style.whole = .nothing then [] else numbered l) = ⟨[.tuple _], []⟩ from rfl, hpos] at this
      rcases hw with ⟨h, h'⟩ | h
      · exact Or.inr (Or.inl ⟨h, h'⟩)
      · refine Or.inr (Or.inr (Or.inl ?_))
        match names, this, h with
        | [n], _, h => rw [List.mem_singleton.1 h]
    · next hw =>
      split at hc
      · cases hc
        have := (hcall _ _).1 hv0
        rw [show listCall .unpack (fun _ => 0) (if Style.unpack = .nothing then [] else numbered l) = ⟨(numbered l).map _, []⟩ from rfl, hpos] at this
        rw [List.length_map, hnum] at this
        exact Or.inl ⟨this, fun h => hw (Or.inr h)⟩
      · split at hc
        · next h0 => exact Or.inr (Or.inr (Or.inr (List.length_eq_zero_iff.1 h0)))
        · cases hc
  · intro h
    by_cases h0 : names = []
    · subst h0
      obtain ⟨c, hc, hv⟩ := composed_nothing id name ⟨⟨[], none, none⟩, body⟩ rfl (.list l) (by simp)
      exact ⟨c, hc, fun ρ => by rw [hv ρ]; exact hb _ _⟩
    · rcases h with ⟨h, hp⟩ | ⟨h, h'⟩ | h | h
      · obtain ⟨c, hc, -, -, hv⟩ := composed_positional id name ⟨⟨names.map (fun n => (n, false)), none, none⟩, body⟩ l
          (names.map (fun n => (n, false))) rfl (by simpa [List.map_map, Function.comp_def] using hp) (by simp; omega)
          (by rw [List.drop_eq_nil_of_le (by simp; omega)]; simp) (by simp; omega)
        exact ⟨c, hc, fun ρ => by rw [hv ρ]; exact hb _ _⟩
      · obtain ⟨n, rfl⟩ := List.length_eq_one_iff.1 h
        obtain ⟨c, hc, hv⟩ := composed_whole id name ⟨⟨[(n, false)], none, none⟩, body⟩ n rfl (.list l) (by simp) (Or.inl h')
        exact ⟨c, hc, fun ρ => by rw [hv ρ]; exact hb _ _⟩
      · subst h
        obtain ⟨c, hc, hv⟩ := composed_whole id name ⟨⟨[("params", false)], none, none⟩, body⟩ "params" rfl (.list l)
          (by simp) (Or.inr rfl)
        exact ⟨c, hc, fun ρ => by rw [hv ρ]; exact hb _ _⟩
      · exact absurd h h0

/-- C114 fails: a function of one argument that takes the mapping, with a mapping of one entry, is called with the entry
by name; the parameter is created and every evaluation raises. -/
theorem single_entry_dict_violated (id : Nat) (name key arg : String) (hk : key ≠ arg) (ha : arg ≠ "params") (p : Pr)
    (body : Store → Call → Except Err R) :
    ∃ c, compose id name ⟨⟨[(arg, false)], none, none⟩, body⟩ (.dict [(key, p)]) none = .ok c ∧
      ∀ ρ, c.value ρ = .error .typeError := by
  have hst : decideStyle none ⟨[(arg, false)], none, none⟩ 1 = .ok .unpack := by
    unfold decideStyle
    simp [Sig.names, Ne.symm ha]
  refine ⟨_, compose_dict (d := [(key, p)]) hst, ?_⟩
  intro ρ
  refine if_neg ?_
  simp [Sig.accepts, dictCall, hk]

example : ("a" : String) ≠ "d" ∧ ("d" : String) ≠ "params" := by decide

/-- C114 fails: a function `f(*args)` with several parameters gets one tuple as its only argument instead of the
parameters. -/
theorem star_args_violated (id : Nat) (name : String) (body : Store → Call → Except Err R) (p q : Pr) :
    ∃ c, compose id name ⟨⟨[], some "args", none⟩, body⟩ (.list [p, q]) none = .ok c ∧
      ∀ ρ, c.value ρ = body ρ ⟨[.tuple [p.val ρ, q.val ρ]], []⟩ :=
  ⟨_, rfl, fun _ => rfl⟩

/-! ### What it depends on -/

/-- The parameter's value depends on nothing but the independent parameters behind it. -/
def Pr.Faithful (p : Pr) : Prop := ∀ ρ ρ' : Store, (∀ x, Reach p.tree x → ρ x.id = ρ' x.id) → p.val ρ = p.val ρ'

/-- The parameters that were given. -/
def Given.all : Given → List Pr
  | .dict d => d.map (·.2)
  | .list l => l
  | .none => []

/-- C115: the independent parameters behind all parameters that were given are reported, and only they, if the function
has an argument or the parameters were given as a mapping. Missing from the full claim: the cases of `no_argument_list_violated`,
`conj_params_violated`. -/
theorem composed_reports_partial (id : Nat) (name : String) (f : Func R) (g : Given) (unpack : Option Bool) (c : Comp R)
    (hc : compose id name f g unpack = .ok c) (h : (∃ d, g = .dict d) ∨ f.sig.names ≠ [] ∨ unpack ≠ none) (x : Leaf) :
    x ∈ c.indeps ↔ ∃ p ∈ g.all, Reach p.tree x := by
  have key : x ∈ c.indeps ↔ ∃ p ∈ c.params.map (·.2), Reach p.tree x := by
    unfold Comp.indeps Comp.tree
    rw [mem_indeps]
    constructor
    · rintro ⟨h, -⟩
      cases h with
      | self h => cases h
      | dep _ hd hr =>
        obtain ⟨q, hq, rfl⟩ := List.mem_map.1 hd
        exact ⟨q.2, List.mem_map.2 ⟨q, hq, rfl⟩, hr⟩
    · rintro ⟨p, hp, hr⟩
      obtain ⟨q, hq, rfl⟩ := List.mem_map.1 hp
      exact ⟨.dep (by simp) (List.mem_map.2 ⟨q, hq, rfl⟩) hr, by intro b hb; cases hb⟩
  rw [key]
  cases g with
  | none => cases hc
  | dict d =>
    cases hst : decideStyle unpack f.sig d.length with
    | error e => simp only [compose, hst] at hc; cases hc
    | ok st => rw [compose_dict hst] at hc; cases hc; rfl
  | list l =>
    cases hst : decideStyle unpack f.sig l.length with
    | error e => simp only [compose, hst] at hc; cases hc
    | ok st =>
      rw [compose_list hst] at hc
      cases hc
      have hne : st ≠ .nothing := by
        rintro rfl
        rcases h with ⟨d, hd⟩ | h | h
        · cases hd
        · cases unpack with
          | some b => cases b <;> cases hst
          | none =>
            unfold decideStyle at hst
            simp only at hst
            split at hst
            · cases hst
            · split at hst
              · cases hst
              · split at hst
                · next h0 => exact h (List.length_eq_zero_iff.1 h0)
                · cases hst
        · cases unpack with
          | some b => cases b <;> cases hst
          | none => exact h rfl
      simp only [if_neg hne]
      have := numbered_map l (fun p => p)
      simp only [List.map_id'] at this
      rw [this]
      rfl

/-- C115: if the function reads no parameter on its own, the value of a composed parameter depends only on the
independent parameters that it reports. Missing from the full claim: the cases of `no_argument_list_violated`, `conj_params_violated`. -/
theorem composed_depends_only_partial (id : Nat) (name : String) (f : Func R) (g : Given) (unpack : Option Bool)
    (c : Comp R) (hc : compose id name f g unpack = .ok c) (hf : ∀ ρ ρ' a, f.body ρ a = f.body ρ' a)
    (hg : ∀ p ∈ g.all, p.Faithful) (ρ ρ' : Store) (hρ : ∀ x ∈ c.indeps, ρ x.id = ρ' x.id) : c.value ρ = c.value ρ' := by
  have hval : ∀ q ∈ c.params, q.2.Faithful → q.2.val ρ = q.2.val ρ' := by
    intro q hq hfq
    apply hfq
    intro x hx
    apply hρ
    unfold Comp.indeps Comp.tree
    rw [mem_indeps]
    exact ⟨.dep (by simp) (List.mem_map.2 ⟨q, hq, rfl⟩) hx, by intro b hb; cases hb⟩
  have hcall : ∀ a, f.call ρ a = f.call ρ' a := by
    intro a
    unfold Func.call
    rw [hf ρ ρ']
  cases g with
  | none => cases hc
  | dict d =>
    cases hst : decideStyle unpack f.sig d.length with
    | error e => simp only [compose, hst] at hc; cases hc
    | ok st =>
      rw [compose_dict hst] at hc
      cases hc
      simp only at hval ⊢
      rw [hcall]
      congr 1
      cases st with
      | nothing => rfl
      | unpack =>
        unfold dictCall
        simp only [Call.mk.injEq, true_and]
        exact List.map_congr_left fun q hq => by rw [hval q hq (hg q.2 (List.mem_map.2 ⟨q, hq, rfl⟩))]
      | whole =>
        unfold dictCall
        simp only [Call.mk.injEq, List.cons.injEq, Arg.dict.injEq, and_true]
        exact List.map_congr_left fun q hq => by rw [hval q hq (hg q.2 (List.mem_map.2 ⟨q, hq, rfl⟩))]
  | list l =>
    cases hst : decideStyle unpack f.sig l.length with
    | error e => simp only [compose, hst] at hc; cases hc
    | ok st =>
      rw [compose_list hst] at hc
      cases hc
      simp only at hval ⊢
      rw [hcall]
      congr 1
      have hfa : ∀ q ∈ (if st = .nothing then [] else numbered l), q.2.Faithful := by
        intro q hq
        split at hq
        · cases hq
        · apply hg
          have h2 : q.2 ∈ (numbered l).map (fun p => p.2) := List.mem_map.2 ⟨q, hq, rfl⟩
          have h3 := numbered_map l (fun p => p)
          rw [List.map_id'] at h3
          rwa [h3] at h2
      generalize (if st = .nothing then [] else numbered l) = d at *
      cases st with
      | nothing => rfl
      | unpack =>
        unfold listCall
        simp only [Call.mk.injEq, and_true]
        exact List.map_congr_left fun q hq => by rw [hval q hq (hfa q hq)]
      | whole =>
        unfold listCall
        simp only [Call.mk.injEq, List.cons.injEq, Arg.tuple.injEq, and_true]
        exact List.map_congr_left fun q hq => hval q hq (hfa q hq)

/-- An independent, floating parameter for the examples. -/
def exPar (i : Nat) (n : String) : Pr := ⟨.node ⟨i, n, .indep, true⟩ [], fun ρ => ρ i⟩

example (i : Nat) (n : String) : (exPar i n).Faithful := fun _ _ h => h ⟨i, n, .indep, true⟩ (.self rfl)

example (i : Nat) (n : String) : Reach (exPar i n).tree ⟨i, n, .indep, true⟩ := .self rfl

/-- C115 fails: given a list of parameters and a function without arguments, the composed parameter reports none of
them, whatever the function reads. -/
theorem no_argument_list_violated (id : Nat) (name : String) (body : Store → Call → Except Err R) (l : List Pr) :
    ∃ c, compose id name ⟨⟨[], none, none⟩, body⟩ (.list l) none = .ok c ∧ c.indeps = [] := by
  cases l with
  | nil => exact ⟨_, rfl, rfl⟩
  | cons p l => exact ⟨_, rfl, rfl⟩

/-! ### Complex parameters -/

/-- C116: a complex parameter made from cartesian coordinates is `real + imag * i`, at any time, and so are its parts. -/
theorem cartesian_value (id : Nat) (name : String) (re im : Pr) (fl : Bool) :
    ∃ c, fromCartesian id name (.param re) (.param im) fl = .ok c ∧ ∀ ρ,
      c.value ρ = .ok ((re.val ρ : ℂ) + im.val ρ * Complex.I) ∧ c.real ρ = .ok (re.val ρ) ∧ c.imag ρ = .ok (im.val ρ) ∧
      c.mod ρ = .ok (Real.sqrt (re.val ρ ^ 2 + im.val ρ ^ 2)) := by
  refine ⟨_, rfl, fun ρ => ?_⟩
  have hv : ((⟨re.val ρ, im.val ρ⟩ : ℂ)) = (re.val ρ : ℂ) + im.val ρ * Complex.I := (Complex.mk_eq_add_mul_I _ _)
  refine ⟨congrArg Except.ok hv, rfl, rfl, congrArg Except.ok ?_⟩
  show ‖(⟨re.val ρ, im.val ρ⟩ : ℂ)‖ = _
  rw [Complex.norm_def, Complex.normSq_apply]
  simp only [pow_two]

/-- C116: a complex parameter made from polar coordinates is `mod * exp(i arg)`, at any time. -/
theorem polar_value (id : Nat) (name : String) (m a : Pr) (fl : Bool) :
    ∃ c, fromPolar id name (.param m) (.param a) fl = .ok c ∧ ∀ ρ,
      c.value ρ = .ok ((m.val ρ : ℂ) * Complex.exp (a.val ρ * Complex.I)) := by
  refine ⟨_, rfl, fun ρ => congrArg Except.ok ?_⟩
  show (⟨m.val ρ * Real.cos (a.val ρ), m.val ρ * Real.sin (a.val ρ)⟩ : ℂ) = _
  rw [Complex.exp_mul_I]
  apply Complex.ext <;>
    simp [← Complex.ofReal_cos, ← Complex.ofReal_sin]

/-- C116: the modulus reported is the absolute value of the one given, and the argument is the one given if that is in
`(-π, π]` and the modulus is positive. -/
theorem polar_mod_arg (id : Nat) (name : String) (m a : Pr) (fl : Bool) (c : Comp ℂ)
    (hc : fromPolar id name (.param m) (.param a) fl = .ok c) (ρ : Store) :
    c.mod ρ = .ok |m.val ρ| ∧
      (0 < m.val ρ → a.val ρ ∈ Set.Ioc (-Real.pi) Real.pi → c.arg ρ = .ok (a.val ρ)) := by
  obtain ⟨c', hc', hv⟩ := polar_value id name m a fl
  rw [hc] at hc'
  cases hc'
  unfold Comp.mod Comp.arg
  rw [hv ρ]
  constructor
  · refine congrArg Except.ok ?_
    show ‖(m.val ρ : ℂ) * Complex.exp (a.val ρ * Complex.I)‖ = _
    rw [norm_mul, Complex.norm_exp_ofReal_mul_I, mul_one, Complex.norm_real, Real.norm_eq_abs]
  · intro hm ha
    refine congrArg Except.ok ?_
    exact Complex.arg_mul_cos_add_sin_mul_I hm ha |> fun h => by rw [Complex.exp_mul_I]; exact h

/-- C116: the polar coordinates reported by any complex parameter give its value back. -/
theorem polar_of_parts (c : Comp ℂ) (ρ : Store) (z : ℂ) (hz : c.value ρ = .ok z) :
    ∃ m a, c.mod ρ = .ok m ∧ c.arg ρ = .ok a ∧ ((m : ℂ) * Complex.exp (a * Complex.I)) = z ∧ 0 ≤ m ∧
      a ∈ Set.Ioc (-Real.pi) Real.pi := by
  refine ⟨‖z‖, Complex.arg z, by unfold Comp.mod; rw [hz]; rfl, by unfold Comp.arg; rw [hz]; rfl,
    Complex.norm_mul_exp_arg_mul_I z, norm_nonneg z, Complex.arg_mem_Ioc z⟩

/-- C116: the conjugate is, at any time, the conjugate of the current value, its own conjugate that value. -/
theorem conj_value (c : Comp ℂ) (id id' : Nat) :
    ∃ k k', c.conj id = .ok k ∧ k.name = c.name ++ "_conj" ∧ k.conj id' = .ok k' ∧
      ∀ ρ, k.value ρ = (c.value ρ).map (starRingEnd ℂ) ∧ k'.value ρ = c.value ρ := by
  have hconj : ∀ (c : Comp ℂ) (id : Nat), ∃ k, c.conj id = .ok k ∧ k.name = c.name ++ "_conj" ∧
      ∀ ρ, k.value ρ = (c.value ρ).map (starRingEnd ℂ) := by
    intro c id
    obtain ⟨k, hk, hv⟩ := composed_nothing id (c.name ++ "_conj")
      (⟨⟨[], none, none⟩, fun ρ _ => (c.value ρ).map (starRingEnd ℂ)⟩ : Func ℂ) rfl (.list (c.indeps.map ofLeaf)) (by simp)
    refine ⟨k, hk, ?_, hv⟩
    unfold compose at hk
    cases hst : decideStyle none ⟨[], none, none⟩ (c.indeps.map ofLeaf).length with
    | error e => simp only [hst] at hk; cases hk
    | ok st => simp only [hst] at hk; cases hk; rfl
  obtain ⟨k, hk, hn, hv⟩ := hconj c id
  obtain ⟨k', hk', -, hv'⟩ := hconj k id'
  refine ⟨k, k', hk, hn, hk', fun ρ => ⟨hv ρ, ?_⟩⟩
  rw [hv' ρ, hv ρ]
  cases c.value ρ with
  | error e => rfl
  | ok z => simp [Except.map]

/-- C115 fails for the conjugate of a complex parameter: it reports no parameters at all, although its value changes
with those of the parts. -/
theorem conj_params_violated (id id' : Nat) (name : String) :
    ∃ c k, fromCartesian id name (.param (exPar 1 "re")) (.param (exPar 2 "im")) = .ok c ∧ c.conj id' = .ok k ∧
      c.indeps.map (·.name) = ["re", "im"] ∧ k.indeps = [] ∧
      ∃ ρ ρ', (∀ x, x ≠ 2 → ρ x = ρ' x) ∧ k.value ρ ≠ k.value ρ' := by
  refine ⟨_, _, rfl, rfl, rfl, rfl, fun _ => 0, fun i => if i = 2 then 1 else 0, ?_, ?_⟩
  · intro x hx
    simp [hx]
  · intro h
    have h' : ((starRingEnd ℂ) ⟨0, 0⟩ : ℂ) = (starRingEnd ℂ) ⟨0, 1⟩ := Except.ok.inj h
    have := congrArg Complex.im h'
    simp at this

private theorem floatOk_none : floatOk none = fun _ => true := rfl

/-- C117: numbers make a complex parameter with two free parts if `floating`, with none otherwise. Missing from the full claim: the cases of
`complex_floating_violated`. -/
theorem complex_floating_partial (id : Nat) (name : String) (x y : ℝ) (fl : Bool) :
    (∃ c, fromCartesian id name (.num x) (.num y) fl = .ok c ∧
      c.indeps.map (·.name) = (if fl then [name ++ "_real", name ++ "_imag"] else []) ∧
      (fl = false → ∀ ρ, c.value ρ = .ok ⟨x, y⟩)) ∧
    ∃ c, fromPolar id name (.num x) (.num y) fl = .ok c ∧
      c.indeps.map (·.name) = (if fl then [name ++ "_mod", name ++ "_arg"] else []) ∧
      (fl = false → ∀ ρ, c.value ρ = .ok ((x : ℂ) * Complex.exp (y * Complex.I))) := by
  constructor
  · cases fl
    · exact ⟨_, rfl, rfl, fun _ ρ => rfl⟩
    · refine ⟨_, rfl, ?_, fun h => by cases h⟩
      simp [Comp.indeps, Comp.tree, numbered, List.range_succ, Par.indeps, Par.indepsList, oset, Num.toParam, floatOk_none]
  · cases fl
    · refine ⟨_, rfl, rfl, fun _ ρ => congrArg Except.ok ?_⟩
      show (⟨x * Real.cos y, x * Real.sin y⟩ : ℂ) = _
      rw [Complex.exp_mul_I]
      apply Complex.ext <;> simp [← Complex.ofReal_cos, ← Complex.ofReal_sin]
    · refine ⟨_, rfl, ?_, fun h => by cases h⟩
      simp [Comp.indeps, Comp.tree, numbered, List.range_succ, Par.indeps, Par.indepsList, oset, Num.toParam, floatOk_none]

/-- C117 fails for parameters: with `floating=False` ("the parameter is constant") the parts are still free. -/
theorem complex_floating_violated (id : Nat) (name : String) :
    ∃ c, fromCartesian id name (.param (exPar 1 "re")) (.param (exPar 2 "im")) false = .ok c ∧
      (c.indeps.all (·.floating)) = true ∧ c.indeps.length = 2 := ⟨_, rfl, rfl, rfl⟩

end Zfit.Args
