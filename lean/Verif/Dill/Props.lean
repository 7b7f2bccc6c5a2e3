import Verif.Dill.Lemmas

/-! Properties of zfit/dill.py (C81). -/

namespace Zfit.Dill

variable {Byte Obj : Type}

/-! ## Loading -/

/-- C81. `loads` tries at most `max_retries + 1` times, clearing the cached graphs after every failure, and returns the
object of the first attempt that succeeds; if all of them fail it raises `ZfitDillLoadError`. -/
theorem loads_first_success (w : World Byte Obj) (r k : ℕ) (hk : k ≤ r) (bytes : List Byte) (s : St Byte)
    (hf : ∀ i < k, w.loadCall (s.loaded + i) bytes = .error .other) :
    (∀ o n, w.loadCall (s.loaded + k) bytes = .ok (o, n) → ∃ s', loadsUser w (some r) bytes s = (s', .ok o) ∧
      s'.loaded = s.loaded + k + 1 ∧ s'.cleared = s.cleared + k) ∧
    (k = r → w.loadCall (s.loaded + k) bytes = .error .other →
      ∃ s', loadsUser w (some r) bytes s = (s', .error .zfitDillLoadError) ∧ s'.loaded = s.loaded + r + 1) := by
  have hr : loadsUser w (some (r : ℤ)) bytes s = loads w r bytes s := by
    have h0 : ¬ (r : ℤ) < 0 := by omega
    simp [loadsUser, retries, h0]
  rw [hr]
  have h := graphClear_first (counts_loads w bytes s.content) r k hk s rfl (fun i hi => by simp [hf i hi, Except.map])
  refine ⟨fun o n ho => ?_, fun hkr ho => ?_⟩
  · obtain ⟨s', h1, h2, h3, _⟩ := h.1 o (by simp [ho, Except.map])
    exact ⟨s', h1, h2, h3⟩
  · obtain ⟨s', h1, h2, h3, _⟩ := h.2.2 hkr (by simp [ho, Except.map])
    exact ⟨s', h1, by omega⟩

/-- C81. Every attempt of `load` reads the file from the position where it was handed in; the object is that of the first
attempt that succeeds, and the file is left behind it and otherwise unchanged. -/
theorem load_rewinds (w : World Byte Obj) (m : Option ℤ) (s s' : St Byte) (o : Obj) (h : loadUser w m s = (s', .ok o)) :
    s'.content = s.content ∧ ∃ k n, w.loadCall (s.loaded + k) (s.content.drop s.pos) = .ok (o, n) ∧ s'.pos = s.pos + n ∧
      ∀ i < k, ∃ e, w.loadCall (s.loaded + i) (s.content.drop s.pos) = .error e := by
  unfold loadUser at h
  rcases hr : retries m with e | r
  · rw [hr] at h; simp at h
  · rw [hr] at h
    simp only [load] at h
    obtain ⟨k, hk, k1, k2, k3, k4, k5, k6, s'', k7, k8, k9⟩ := graphClear_ok (counts_load w s.pos s.content) r s rfl s' o h
    refine ⟨k4, k, ?_⟩
    unfold callLoad at k9
    rw [k8, k7] at k9
    rcases hl : w.loadCall (s.loaded + k) (s.content.drop s.pos) with e | ⟨o', n⟩
    · rw [hl] at k9; simp at k9
    · rw [hl] at k9
      simp only [Prod.mk.injEq, Except.ok.injEq] at k9
      obtain ⟨k9, rfl⟩ := k9
      refine ⟨n, rfl, by rw [← k9], fun i hi => ?_⟩
      obtain ⟨e, he⟩ := k2 i hi
      rcases hli : w.loadCall (s.loaded + i) (s.content.drop s.pos) with e' | x
      · exact ⟨e', rfl⟩
      · rw [hli] at he; simp [Except.map] at he

/-! ## Dumping to bytes -/

theorem dumpsLoop_ok (w : World Byte Obj) (r left : ℕ) (redo : Bool) (s s' : St Byte) (out : List Byte)
    (h : dumpsLoop w r true left redo s = (s', .ok out)) :
    s.dumped < s'.dumped ∧ w.dumpCall (s'.dumped - 1) = (out, none) ∧ s.loaded < s'.loaded ∧
    (∃ o n, w.loadCall (s'.loaded - 1) out = .ok (o, n)) ∧ s'.content = s.content := by
  induction left generalizing redo s with
  | zero =>
    unfold dumpsLoop at h
    have hc := retryGc_counts (dcounts_dumps w) w.limit (r : ℤ) s
    have hi := retryGc_inv (call := callDumps w) (fun t => s.dumped ≤ t.dumped ∧ t.content = s.content) (fun t ht => ⟨by
      rw [(dcounts_dumps w).dumped]; omega, by
      unfold callDumps; rcases w.dumpCall t.dumped with ⟨b, _ | e⟩ <;> exact ht.2⟩) w.limit (r : ℤ) s ⟨le_refl _, rfl⟩
    rcases hd : retryGc (callDumps w) w.limit (r : ℤ) s with ⟨s1, e | b⟩
    · rw [hd] at h; simp at h
    · rw [hd] at h hc hi
      obtain ⟨s0, hs0, hcall⟩ := hi.2 b rfl
      have hb : w.dumpCall s0.dumped = (b, none) ∧ s1.dumped = s0.dumped + 1 := by
        unfold callDumps at hcall
        rcases hw : w.dumpCall s0.dumped with ⟨b', _ | e⟩
        · rw [hw] at hcall
          simp only [Prod.mk.injEq, Except.ok.injEq] at hcall
          exact ⟨by rw [hcall.2], by rw [← hcall.1]⟩
        · rw [hw] at hcall; simp at hcall
      simp only [if_true] at h
      rcases hl : loads w r b s1 with ⟨s2, e | o⟩
      · rw [hl] at h
        cases e <;> simp at h
      · rw [hl] at h
        obtain ⟨k, hk, k1, k2, k3, k4, k5, k6, k7⟩ := graphClear_ok (counts_loads w b s1.content) r s1 rfl s2 o hl
        have h2 : (s2, out) = (s', out) ∧ b = out := by
          cases redo <;> simp at h <;> exact ⟨by rw [h.1], h.2⟩
        simp only [Prod.mk.injEq, and_true] at h2
        obtain ⟨rfl, rfl⟩ := h2
        refine ⟨by omega, ?_, by simp only at hc; omega, ?_, by rw [k4]; exact hi.1.2⟩
        · rw [show s2.dumped - 1 = s0.dumped by omega]; exact hb.1
        · rw [show s2.loaded - 1 = s1.loaded + k by omega]
          rcases hw : w.loadCall (s1.loaded + k) b with e | ⟨o', n⟩
          · rw [hw] at k1; simp [Except.map] at k1
          · exact ⟨o', n, rfl⟩
  | succ left ih =>
    unfold dumpsLoop at h
    have hc := retryGc_counts (dcounts_dumps w) w.limit (r : ℤ) s
    have hi := retryGc_inv (call := callDumps w) (fun t => s.dumped ≤ t.dumped ∧ t.content = s.content) (fun t ht => ⟨by
      rw [(dcounts_dumps w).dumped]; omega, by
      unfold callDumps; rcases w.dumpCall t.dumped with ⟨b, _ | e⟩ <;> exact ht.2⟩) w.limit (r : ℤ) s ⟨le_refl _, rfl⟩
    rcases hd : retryGc (callDumps w) w.limit (r : ℤ) s with ⟨s1, e | b⟩
    · rw [hd] at h; simp at h
    · rw [hd] at h hc hi
      obtain ⟨s0, hs0, hcall⟩ := hi.2 b rfl
      have hb : w.dumpCall s0.dumped = (b, none) ∧ s1.dumped = s0.dumped + 1 := by
        unfold callDumps at hcall
        rcases hw : w.dumpCall s0.dumped with ⟨b', _ | e⟩
        · rw [hw] at hcall
          simp only [Prod.mk.injEq, Except.ok.injEq] at hcall
          exact ⟨by rw [hcall.2], by rw [← hcall.1]⟩
        · rw [hw] at hcall; simp at hcall
      simp only [if_true] at h
      have go : ∀ (s2 : St Byte) (rd : Bool), s2.dumped = s1.dumped → s1.loaded < s2.loaded → s2.content = s1.content →
          dumpsLoop w r true left rd s2 = (s', .ok out) →
          s.dumped < s'.dumped ∧ w.dumpCall (s'.dumped - 1) = (out, none) ∧ s.loaded < s'.loaded ∧
          (∃ o n, w.loadCall (s'.loaded - 1) out = .ok (o, n)) ∧ s'.content = s.content := by
        intro s2 rd g1 g2 g3 hg
        obtain ⟨i1, i2, i3, i4, i5⟩ := ih rd s2 hg
        simp only at hc hi
        exact ⟨by omega, i2, by omega, i4, by rw [i5, g3]; exact hi.1.2⟩
      rcases hl : loads w r b s1 with ⟨s2, e | o⟩
      · rw [hl] at h
        cases e <;> simp at h
        obtain ⟨k, hk, k1, k2, k3, k4, k5⟩ := graphClear_error (counts_loads w b s1.content) r s1 rfl s2 _ hl
        exact go { s2 with cleared := s2.cleared + 1 } true k4 (by simp only; omega) k3 h
      · rw [hl] at h
        obtain ⟨k, hk, k1, k2, k3, k4, k5, k6, k7⟩ := graphClear_ok (counts_loads w b s1.content) r s1 rfl s2 o hl
        cases redo with
        | true => exact go s2 true k5 (by omega) k4 h
        | false =>
          simp at h
          obtain ⟨rfl, rfl⟩ := h
          refine ⟨by omega, ?_, by simp only at hc; omega, ?_, by rw [k4]; exact hi.1.2⟩
          · rw [show s2.dumped - 1 = s0.dumped by omega]; exact hb.1
          · rw [show s2.loaded - 1 = s1.loaded + k by omega]
            rcases hw : w.loadCall (s1.loaded + k) b with e | ⟨o', n⟩
            · rw [hw] at k1; simp [Except.map] at k1
            · exact ⟨o', n, rfl⟩

/-- C81. What `dumps` returns is what its last call of `dill.dumps` produced, and its last call of `dill.loads` has loaded
exactly these bytes without an error. -/
theorem dumps_verified (w : World Byte Obj) (m : Option ℤ) (v : Option Bool) (hv : v ≠ some false) (s s' : St Byte)
    (out : List Byte) (h : dumps w m v s = (s', .ok out)) :
    s.dumped < s'.dumped ∧ w.dumpCall (s'.dumped - 1) = (out, none) ∧ s.loaded < s'.loaded ∧
    ∃ o n, w.loadCall (s'.loaded - 1) out = .ok (o, n) := by
  unfold dumps at h
  have hv' : v.getD true = true := by
    rcases v with _ | _ | _
    · rfl
    · exact absurd rfl hv
    · rfl
  rw [hv'] at h
  rcases hr : retries m with e | r
  · rw [hr] at h; simp at h
  · rw [hr] at h
    have := dumpsLoop_ok w r r false s s' out h
    exact ⟨this.1, this.2.1, this.2.2.1, this.2.2.2.1⟩

/-- C81. If the first dump succeeds and can be loaded, its bytes are returned after one call each of `dill.dumps` and
`dill.loads`, and no graph is cleared. -/
theorem dumps_first_try (w : World Byte Obj) (hlim : 0 < w.limit) (m : Option ℤ) (hm : ∀ i, m = some i → 0 ≤ i) (v : Option Bool)
    (hv : v ≠ some false) (s : St Byte) (out : List Byte) (hd : w.dumpCall s.dumped = (out, none)) (o : Obj) (n : ℕ)
    (hl : w.loadCall s.loaded out = .ok (o, n)) :
    dumps w m v s = ({ s with dumped := s.dumped + 1, loaded := s.loaded + 1 }, .ok out) := by
  have hv' : v.getD true = true := by
    rcases v with _ | _ | _
    · rfl
    · exact absurd rfl hv
    · rfl
  obtain ⟨r, hr⟩ : ∃ r, retries m = .ok r := by
    rcases m with _ | i
    · exact ⟨2, rfl⟩
    · exact ⟨i.toNat, by simp only [retries]; rw [if_neg (by have := hm i rfl; omega)]⟩
  obtain ⟨d, hd'⟩ : ∃ d, w.limit = d + 1 := ⟨w.limit - 1, by omega⟩
  have h1 : retryGc (callDumps w) w.limit (r : ℤ) s = ({ s with dumped := s.dumped + 1 }, .ok out) := by
    rw [hd', retryGc]
    simp [callDumps, hd]
  have h2 : loads w r out { s with dumped := s.dumped + 1 } = ({ s with dumped := s.dumped + 1, loaded := s.loaded + 1 }, .ok o) := by
    unfold loads graphClear
    simp [callLoads, hl, Except.map]
  unfold dumps
  rw [hr, hv']
  simp only
  unfold dumpsLoop
  rw [h1]
  simp only [if_true]
  rw [h2]
  simp

/-- C81. A negative number of retries is rejected, before anything is done. -/
theorem negative_retries (w : World Byte Obj) (i : ℤ) (hi : i < 0) (v : Option Bool) (bytes : List Byte) (s : St Byte) :
    dumps w (some i) v s = (s, .error .valueError) ∧ dump w (some i) v s = (s, .error .valueError) ∧
    loadsUser w (some i) bytes s = (s, .error .valueError) ∧ loadUser w (some i) s = (s, .error .valueError) := by
  simp [dumps, dump, loadsUser, loadUser, retries, hi]

theorem loads_bounded (w : World Byte Obj) (r : ℕ) (b : List Byte) (s : St Byte) :
    (loads w r b s).1.loaded ≤ s.loaded + r + 1 ∧ (loads w r b s).1.dumped = s.dumped := by
  rcases hl : loads w r b s with ⟨s2, e | o⟩
  · obtain ⟨k, hk, k1, k2, k3, k4, k5⟩ := graphClear_error (counts_loads w b s.content) r s rfl s2 _ hl
    exact ⟨by simp only; omega, k4⟩
  · obtain ⟨k, hk, k1, k2, k3, k4, k5, k6, k7⟩ := graphClear_ok (counts_loads w b s.content) r s rfl s2 o hl
    exact ⟨by simp only; omega, k5⟩

/-- C81. If no dictionary changes its size meanwhile, `dumps` with `max_retries = r` calls `dill.dumps` and `dill.loads` at most
`(r + 1)²` times each. Missing from the full claim: the cases of `dict_changed_unbounded_violated`, `dumps_discards_verified_violated`,
`dump_garbage_violated`, `dump_trailing_violated`. -/
theorem dumps_bounded_partial (w : World Byte Obj) (hd : ∀ k, (w.dumpCall k).2 ≠ some .dictChanged) (r : ℕ) (v : Option Bool)
    (s : St Byte) :
    (dumps w (some r) v s).1.dumped ≤ s.dumped + (r + 1) * (r + 1) ∧
    (dumps w (some r) v s).1.loaded ≤ s.loaded + (r + 1) * (r + 1) := by
  have hdc : ∀ s, (callDumps w s).2 ≠ .error .dictChanged := by
    intro s
    have := hd s.dumped
    unfold callDumps
    rcases hw : w.dumpCall s.dumped with ⟨b, _ | e⟩
    · simp
    · rw [hw] at this
      simp only [ne_eq, Option.some.injEq] at this
      simpa using this
  have key : ∀ (verify : Bool) (left : ℕ) (redo : Bool) (s : St Byte),
      (dumpsLoop w r verify left redo s).1.dumped ≤ s.dumped + (left + 1) * (r + 1) ∧
      (dumpsLoop w r verify left redo s).1.loaded ≤ s.loaded + (left + 1) * (r + 1) := by
    intro verify left
    induction left with
    | zero =>
      intro redo s
      have hc := retryGc_counts (dcounts_dumps w) w.limit (r : ℤ) s
      have hb := retryGc_bounded (dcounts_dumps w) hdc w.limit r s
      unfold dumpsLoop
      rcases hdd : retryGc (callDumps w) w.limit (r : ℤ) s with ⟨s1, e | b⟩
      · rw [hdd] at hc hb; simp only at hc hb ⊢; constructor <;> omega
      · rw [hdd] at hc hb
        simp only at hc hb ⊢
        have hl := loads_bounded w r b s1
        rcases hll : loads w r b s1 with ⟨s2, e | o⟩
        · rw [hll] at hl
          simp only at hl
          cases verify <;> cases redo <;> cases e <;> simp <;> constructor <;> omega
        · rw [hll] at hl
          simp only at hl
          cases verify <;> cases redo <;> simp <;> constructor <;> omega
    | succ left ih =>
      intro redo s
      have hc := retryGc_counts (dcounts_dumps w) w.limit (r : ℤ) s
      have hb := retryGc_bounded (dcounts_dumps w) hdc w.limit r s
      have hmul : (left + 1 + 1) * (r + 1) = (left + 1) * (r + 1) + (r + 1) := by ring
      unfold dumpsLoop
      rcases hdd : retryGc (callDumps w) w.limit (r : ℤ) s with ⟨s1, e | b⟩
      · rw [hdd] at hc hb; simp only at hc hb ⊢
        have : 0 ≤ (left + 1) * (r + 1) := Nat.zero_le _
        rw [hmul]
        constructor <;> omega
      · rw [hdd] at hc hb
        simp only at hc hb ⊢
        have hl := loads_bounded w r b s1
        have hpos : 0 ≤ (left + 1) * (r + 1) := Nat.zero_le _
        rw [hmul]
        cases verify with
        | false =>
          cases redo with
          | false => simp only [Bool.false_eq_true, if_false]; constructor <;> omega
          | true =>
            simp only [Bool.false_eq_true, if_false, if_true]
            have := ih true s1
            constructor <;> omega
        | true =>
          simp only [if_true]
          rcases hll : loads w r b s1 with ⟨s2, e | o⟩
          · rw [hll] at hl
            simp only at hl
            have := ih true { s2 with cleared := s2.cleared + 1 }
            simp only at this
            cases e <;> simp only <;> constructor <;> omega
          · rw [hll] at hl
            simp only at hl
            cases redo with
            | false => simp only [Bool.false_eq_true, if_false]; constructor <;> omega
            | true =>
              simp only [if_true]
              have := ih true s2
              constructor <;> omega
  unfold dumps
  have h0 : ¬ (r : ℤ) < 0 := by omega
  have hr : retries (some (r : ℤ)) = .ok r := by simp [retries, h0]
  rw [hr]
  exact key _ r false s

/-- C81 refuted: as long as a dictionary changes its size, `dumps` and `dump` try again regardless of `max_retries`, until Python's
limit of recursive calls. -/
theorem dict_changed_unbounded_violated (w : World Byte Obj) (hw : ∀ k, (w.dumpCall k).2 = some .dictChanged) (s : St Byte) :
    (dumps w (some 0) none s).1.dumped = s.dumped + w.limit ∧ (dumps w (some 0) none s).2 = .error .recursionError := by
  have key : ∀ (d : ℕ) (r : ℤ) (s : St Byte), (retryGc (callDumps w) d r s).1.dumped = s.dumped + d ∧
      (retryGc (callDumps w) d r s).2 = .error .recursionError := by
    intro d
    induction d with
    | zero => intro r s; exact ⟨rfl, rfl⟩
    | succ d ih =>
      intro r s
      have : callDumps w s = ({ s with dumped := s.dumped + 1 }, .error .dictChanged) := by
        have h := hw s.dumped
        unfold callDumps
        rcases hc : w.dumpCall s.dumped with ⟨b, _ | e⟩
        · rw [hc] at h; simp at h
        · rw [hc] at h; simp only [Option.some.injEq] at h; rw [h]
      rw [retryGc, this]
      simp only
      have hi := ih (r - 1) { s with dumped := s.dumped + 1 }
      exact ⟨by rw [hi.1]; simp only; omega, hi.2⟩
  have hk := key w.limit 0 s
  unfold dumps
  simp only [retries]
  unfold dumpsLoop
  rcases hd : retryGc (callDumps w) w.limit 0 s with ⟨s1, e | b⟩
  · rw [hd] at hk
    simp [hd]
    exact ⟨hk.1, by simpa using hk.2⟩
  · rw [hd] at hk; simp at hk

/-! ## Dumping to a file -/

theorem write_spec (s : St Byte) (b : List Byte) (p : ℕ) (hp : p ≤ s.pos) (hl : s.pos ≤ s.content.length) :
    (write s b).content.take p = s.content.take p ∧ (write s b).pos = s.pos + b.length ∧
    (write s b).pos ≤ (write s b).content.length ∧ b <+: (write s b).content.drop s.pos := by
  have hlen : (s.content.take s.pos).length = s.pos := by simp [hl]
  refine ⟨?_, rfl, ?_, ?_⟩
  · simp only [write]
    rw [List.append_assoc, List.take_append_of_le_length (by omega), List.take_take, min_eq_left hp]
  · simp only [write, List.length_append, hlen]
    omega
  · simp only [write]
    rw [List.append_assoc, List.drop_append_of_le_length (by omega)]
    have : (s.content.take s.pos).drop s.pos = [] := List.drop_eq_nil_of_le (by omega)
    rw [this]
    simp

/-- What holds of the file while `dump` is trying: nothing before the position `p` has changed. -/
def Kept (p : ℕ) (c : List Byte) (s : St Byte) : Prop :=
  p ≤ s.pos ∧ s.pos ≤ s.content.length ∧ s.content.take p = c.take p

theorem kept_call (w : World Byte Obj) (p : ℕ) (c : List Byte) (s : St Byte) (h : Kept p c s) : Kept p c (callDump w s).1 := by
  obtain ⟨h1, h2, h3⟩ := h
  have hw := write_spec { s with dumped := s.dumped + 1 } (w.dumpCall s.dumped).1 p h1 h2
  unfold callDump
  rcases hd : w.dumpCall s.dumped with ⟨b, _ | e⟩ <;> rw [hd] at hw <;>
    exact ⟨by simp only; rw [hw.2.1]; simp only; omega, hw.2.2.1, by rw [hw.1]; exact h3⟩

/-- What `dump` leaves behind, `p` and `c` being the position and the content before. -/
def Stored (w : World Byte Obj) (p : ℕ) (c : List Byte) (s' : St Byte) : Prop :=
  s'.content.take p = c.take p ∧
  (∃ b q, w.dumpCall (s'.dumped - 1) = (b, none) ∧ p ≤ q ∧ s'.pos = q + b.length ∧ b <+: s'.content.drop q) ∧
  ∃ o n, w.loadCall (s'.loaded - 1) (s'.content.drop p) = .ok (o, n)

theorem dumpLoop_ok (w : World Byte Obj) (r p : ℕ) (c : List Byte) (hp : p ≤ c.length) (left : ℕ) (redo : Bool) (s s' : St Byte)
    (hs : Kept p c s) (h : dumpLoop w r true p left redo s = (s', .ok ())) : Stored w p c s' := by
  induction left generalizing redo s with
  | zero =>
    unfold dumpLoop at h
    have hi := retryGc_inv (call := callDump w) (Kept p c) (fun t ht => kept_call w p c t ht) w.limit (r : ℤ) s hs
    rcases hd : retryGc (callDump w) w.limit (r : ℤ) s with ⟨s1, e | u⟩
    · rw [hd] at h; simp at h
    · rw [hd] at h hi
      obtain ⟨s0, hs0, hcall⟩ := hi.2 u rfl
      simp only [if_true] at h
      rcases hl : load w r { s1 with pos := p } with ⟨s2, e | o⟩
      · rw [hl] at h
        cases e <;> simp at h
      · rw [hl] at h
        obtain ⟨k, hk, k1, k2, k3, k4, k5, k6, k7⟩ := graphClear_ok (counts_load w p s1.content) r { s1 with pos := p } rfl s2 o hl
        simp only [Prod.mk.injEq, and_true] at h
        subst h
        unfold callDump at hcall
        rcases hw : w.dumpCall s0.dumped with ⟨b, _ | e⟩
        · rw [hw] at hcall
          simp only [Prod.mk.injEq, Except.ok.injEq, and_true] at hcall
          have hws := write_spec { s0 with dumped := s0.dumped + 1 } b p hs0.1 hs0.2.1
          rw [hcall] at hws
          have hdu : s1.dumped = s0.dumped + 1 := by rw [← hcall]; rfl
          refine ⟨by simp only; rw [k4]; exact hi.1.2.2, ⟨b, s0.pos, ?_, hs0.1, hws.2.1, by simp only; rw [k4]; exact hws.2.2.2⟩, ?_⟩
          · simp only; rw [k5]; simp only; rw [hdu, Nat.add_sub_cancel]; exact hw
          · simp only at k3 ⊢
            rw [k4, show s2.loaded - 1 = s1.loaded + k by omega]
            rcases hlc : w.loadCall (s1.loaded + k) (s1.content.drop p) with e | ⟨o', n⟩
            · simp only at k1; rw [hlc] at k1; simp [Except.map] at k1
            · exact ⟨o', n, rfl⟩
        · rw [hw] at hcall; simp at hcall
  | succ left ih =>
    unfold dumpLoop at h
    have hi := retryGc_inv (call := callDump w) (Kept p c) (fun t ht => kept_call w p c t ht) w.limit (r : ℤ) s hs
    rcases hd : retryGc (callDump w) w.limit (r : ℤ) s with ⟨s1, e | u⟩
    · rw [hd] at h; simp at h
    · rw [hd] at h hi
      obtain ⟨s0, hs0, hcall⟩ := hi.2 u rfl
      simp only [if_true] at h
      rcases hl : load w r { s1 with pos := p } with ⟨s2, e | o⟩
      · rw [hl] at h
        obtain ⟨k, hk, k1, k2, k3, k4, k5⟩ := graphClear_error (counts_load w p s1.content) r { s1 with pos := p } rfl s2 _ hl
        cases e <;> simp at h
        refine ih true _ ⟨le_refl _, ?_, ?_⟩ h
        · simp only; rw [k3]; exact le_trans hi.1.1 hi.1.2.1
        · simp only; rw [k3]; exact hi.1.2.2
      · rw [hl] at h
        obtain ⟨k, hk, k1, k2, k3, k4, k5, k6, k7⟩ := graphClear_ok (counts_load w p s1.content) r { s1 with pos := p } rfl s2 o hl
        simp only [Prod.mk.injEq, and_true] at h
        subst h
        unfold callDump at hcall
        rcases hw : w.dumpCall s0.dumped with ⟨b, _ | e⟩
        · rw [hw] at hcall
          simp only [Prod.mk.injEq, Except.ok.injEq, and_true] at hcall
          have hws := write_spec { s0 with dumped := s0.dumped + 1 } b p hs0.1 hs0.2.1
          rw [hcall] at hws
          have hdu : s1.dumped = s0.dumped + 1 := by rw [← hcall]; rfl
          refine ⟨by simp only; rw [k4]; exact hi.1.2.2, ⟨b, s0.pos, ?_, hs0.1, hws.2.1, by simp only; rw [k4]; exact hws.2.2.2⟩, ?_⟩
          · simp only; rw [k5]; simp only; rw [hdu, Nat.add_sub_cancel]; exact hw
          · simp only at k3 ⊢
            rw [k4, show s2.loaded - 1 = s1.loaded + k by omega]
            rcases hlc : w.loadCall (s1.loaded + k) (s1.content.drop p) with e | ⟨o', n⟩
            · simp only at k1; rw [hlc] at k1; simp [Except.map] at k1
            · exact ⟨o', n, rfl⟩
        · rw [hw] at hcall; simp at hcall

/-- C81. After `dump` with verification, everything in the file before the position where it started is unchanged, the file is
positioned right behind the bytes of the last call of `dill.dump`, and the last call of `dill.load` read an object
successfully from the position where `dump` started. -/
theorem dump_verified (w : World Byte Obj) (m : Option ℤ) (v : Option Bool) (hv : v ≠ some false) (s s' : St Byte)
    (hp : s.pos ≤ s.content.length) (h : dump w m v s = (s', .ok ())) :
    s'.content.take s.pos = s.content.take s.pos ∧
    (∃ b q, w.dumpCall (s'.dumped - 1) = (b, none) ∧ s.pos ≤ q ∧ s'.pos = q + b.length ∧ b <+: s'.content.drop q) ∧
    ∃ o n, w.loadCall (s'.loaded - 1) (s'.content.drop s.pos) = .ok (o, n) := by
  unfold dump at h
  have hv' : v.getD true = true := by
    rcases v with _ | _ | _
    · rfl
    · exact absurd rfl hv
    · rfl
  rw [hv'] at h
  rcases hr : retries m with e | r
  · rw [hr] at h; simp at h
  · rw [hr] at h
    exact dumpLoop_ok w r s.pos s.content hp r false s s' ⟨le_refl _, hp, rfl⟩ h

/-- C81. If the first dump succeeds and can be loaded, the file holds its bytes at the position where it started and is
positioned behind them. -/
theorem dump_first_try (w : World Byte Obj) (hlim : 0 < w.limit) (m : Option ℤ) (hm : ∀ i, m = some i → 0 ≤ i) (v : Option Bool)
    (s : St Byte) (out : List Byte) (hd : w.dumpCall s.dumped = (out, none)) (o : Obj) (n : ℕ)
    (hl : w.loadCall s.loaded ((s.content.take s.pos ++ out ++ s.content.drop (s.pos + out.length)).drop s.pos) = .ok (o, n)) :
    ∃ s', dump w m v s = (s', .ok ()) ∧ s'.content = s.content.take s.pos ++ out ++ s.content.drop (s.pos + out.length) ∧
      s'.pos = s.pos + out.length ∧ s'.cleared = s.cleared := by
  obtain ⟨r, hr⟩ : ∃ r, retries m = .ok r := by
    rcases m with _ | i
    · exact ⟨2, rfl⟩
    · exact ⟨i.toNat, by simp only [retries]; rw [if_neg (by have := hm i rfl; omega)]⟩
  obtain ⟨d, hd'⟩ : ∃ d, w.limit = d + 1 := ⟨w.limit - 1, by omega⟩
  have h1 : retryGc (callDump w) w.limit (r : ℤ) s = (write { s with dumped := s.dumped + 1 } out, .ok ()) := by
    rw [hd', retryGc]
    simp [callDump, hd]
  have h2 : load w r { write { s with dumped := s.dumped + 1 } out with pos := s.pos } =
      ({ write { s with dumped := s.dumped + 1 } out with pos := s.pos + n, loaded := s.loaded + 1 }, .ok o) := by
    unfold load graphClear
    simp only [callLoad, write]
    rw [hl]
  unfold dump
  rw [hr]
  simp only
  unfold dumpLoop
  rw [h1]
  simp only
  rw [h2]
  rcases hv : v.getD true with _ | _
  · exact ⟨_, rfl, rfl, rfl, rfl⟩
  · exact ⟨_, rfl, rfl, rfl, rfl⟩

/-! ## Where the code differs -/

/-- A world for the examples: bytes are numbers; a load succeeds if the first byte is 7. -/
def exWorld (dumps : List (List ℕ × Option DumpRaise)) (loads : List Bool) : World ℕ ℕ where
  dumpCall k := dumps.getD k ([7], none)
  loadCall k b := if loads.getD k true ∧ b.head? = some 7 then .ok (7, 1) else .error .other
  limit := 1000

/-- The state in which nothing was called and the file is empty. -/
def empty : St ℕ := ⟨0, 0, 0, [], 0⟩

/-- The hypotheses of `dumps_verified` and `dump_verified` are met, here after a failed dump and a failed load. -/
example : (dumps (exWorld [([7, 8], some .funcGraph), ([7, 9], none)] [false]) none none empty).2 = .ok [7, 9] ∧
    (dump (exWorld [([7, 8], none), ([7, 9], none)] [false]) (some 1) none empty).2 = .ok () := by decide +kernel

/-- C81 refuted: `dumps` raises `ZfitDillDumpError` although the second of three dumps was verified, since it goes on trying
after any failure. -/
theorem dumps_discards_verified_violated :
    let w := exWorld [([7], none), ([7], none), ([7], none)] [false, false, false, true, false, false, false]
    (dumps w none none empty).2 = .error .zfitDillDumpError ∧ w.dumpCall 1 = ([7], none) ∧ w.loadCall 3 [7] = .ok (7, 1) ∧
    (dumps w none none empty).1.dumped = 3 ∧ (dumps w none none empty).1.loaded = 7 := by decide +kernel

/-- C81 refuted: without verification, the bytes that a failed dump has written stay in the file in front of the second,
successful one: the file cannot be loaded from where `dump` started. -/
theorem dump_garbage_violated :
    let w := exWorld [([1, 2], some .funcGraph), ([7], none)] []
    (dump w none (some false) empty).2 = .ok () ∧ (dump w none (some false) empty).1.content = [1, 2, 7] ∧
    (loadUser w none { (dump w none (some false) empty).1 with pos := 0 }).2 = .error .zfitDillLoadError := by decide +kernel

/-- C81 refuted: if a retried dump is shorter than the first, the rest of the first remains behind it. -/
theorem dump_trailing_violated :
    let w := exWorld [([7, 1, 2, 3], none), ([7, 9], none)] [false, false]
    (dump w (some 1) none empty).2 = .ok () ∧ (dump w (some 1) none empty).1.content = [7, 9, 2, 3] ∧
    (dump w (some 1) none empty).1.pos = 2 := by decide +kernel

end Zfit.Dill
