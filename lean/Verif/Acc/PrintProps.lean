import Verif.Acc.PrintModel
import Mathlib.Data.List.Nodup

/-!
# Property C308: the table printed for a result (see /verif/properties.jsonl)
-/

namespace Zfit.Acc

open Zfit

/-! ## Specification -/

/-- The heading of the column for a key. -/
def heading (k : String) : String := if k = "value" then "value  (rounded)" else k

/-- The cell of a row under a heading. -/
def Table.cell (t : Table) (row : List String) (h : String) : Option String := row[t.heads.idxOf h]?

/-- A key that some parameter of the result has. -/
def HasKey (d : List (Key × List (String × Entry))) (k : String) : Prop := ∃ e ∈ d, k ∈ e.2.map (·.1)

/-! ## Lemmas -/

theorem mem_foldl_addNew (l acc : List String) (k : String) : k ∈ l.foldl addNew acc ↔ k ∈ acc ∨ k ∈ l := by
  induction l generalizing acc with
  | nil => simp
  | cons a l ih =>
    rw [List.foldl_cons, ih]
    unfold addNew
    split
    · rename_i h
      constructor
      · rintro (h' | h')
        · exact .inl h'
        · exact .inr (List.mem_cons_of_mem _ h')
      · rintro (h' | h')
        · exact .inl h'
        · rcases List.mem_cons.1 h' with rfl | h'
          · exact .inl h
          · exact .inr h'
    · simp only [List.mem_append, List.mem_singleton, List.mem_cons]
      tauto

theorem nodup_foldl_addNew (l acc : List String) (h : acc.Nodup) : (l.foldl addNew acc).Nodup := by
  induction l generalizing acc with
  | nil => exact h
  | cons a l ih =>
    rw [List.foldl_cons]
    apply ih
    unfold addNew
    split
    · exact h
    · rename_i ha
      rw [List.nodup_append]
      refine ⟨h, by simp, ?_⟩
      intro x hx y hy
      rw [List.mem_singleton] at hy
      rintro rfl
      exact ha (hy ▸ hx)

theorem prefix_foldl_addNew (l acc : List String) : acc <+: l.foldl addNew acc := by
  induction l generalizing acc with
  | nil => exact List.prefix_rfl
  | cons a l ih =>
    rw [List.foldl_cons]
    refine List.IsPrefix.trans ?_ (ih _)
    unfold addNew
    split
    · exact List.prefix_rfl
    · exact List.prefix_append _ _

theorem mem_columnKeys (d : List (Key × List (String × Entry))) (k : String) : k ∈ columnKeys d ↔ HasKey d k := by
  unfold columnKeys HasKey
  simp only [mem_foldl_addNew, List.mem_filter, List.not_mem_nil, false_or, decide_eq_true_eq, List.mem_flatMap]
  constructor
  · rintro (h | h)
    · exact h.2
    · exact h
  · exact fun h => .inr h

theorem columnKeys_nodup (d : List (Key × List (String × Entry))) : (columnKeys d).Nodup := by
  unfold columnKeys
  apply nodup_foldl_addNew
  exact List.Nodup.filter _ (by decide)

theorem columnKeys_first {d : List (Key × List (String × Entry))} (h : HasKey d "value") : (columnKeys d)[0]? = some "value" := by
  have hm : "value" ∈ (d.flatMap (fun e => e.2.map (·.1))).foldl addNew [] := by
    rw [mem_foldl_addNew]
    exact .inr (List.mem_flatMap.2 h)
  unfold columnKeys
  simp only
  obtain ⟨r, hr⟩ := prefix_foldl_addNew ((d.flatMap (fun e => e.2.map (·.1))).foldl addNew [])
    (["value", "hesse"].filter (· ∈ (d.flatMap (fun e => e.2.map (·.1))).foldl addNew []))
  rw [← hr, List.filter_cons_of_pos (by simpa using hm)]
  rfl

theorem set_idxOf {l : List String} (hl : l.Nodup) {x y : String} (hx : x ∈ l) :
    l.set (l.idxOf x) y = l.map (fun k => if k = x then y else k) := by
  induction l with
  | nil => simp at hx
  | cons a l ih =>
    rw [List.nodup_cons] at hl
    by_cases h : a = x
    · subst h
      simp only [List.idxOf_cons_self, List.set_cons_zero, List.map_cons, if_true, List.cons.injEq, true_and]
      rw [List.map_congr_left (g := id) ?_, List.map_id]
      intro k hk
      have : k ≠ a := by rintro rfl; exact hl.1 hk
      simp [this]
    · rw [List.idxOf_cons_ne _ h, List.set_cons_succ, List.map_cons, if_neg h]
      rcases List.mem_cons.1 hx with rfl | hx
      · exact absurd rfl h
      · rw [ih hl.2 hx]

/-- The headings that cannot be used as names of errors. -/
def Reserved (k : String) : Prop := k = "name" ∨ k = "at limit" ∨ k = "value  (rounded)"

theorem heading_inj {k l : String} (hk : ¬ Reserved k) (hl : ¬ Reserved l) (h : heading k = heading l) : k = l := by
  unfold heading at h
  split at h <;> split at h
  · rename_i h1 h2; rw [h1, h2]
  · exact absurd (.inr (.inr h.symm)) hl
  · exact absurd (.inr (.inr h)) hk
  · exact h

theorem printTable_ok (g7 g2 : ℚ → String) (obj : Par → Args.PObj) {d : List (Key × List (String × Entry))}
    (hv : HasKey d "value") :
    printTable g7 g2 obj d =
      .ok ⟨"name" :: ((columnKeys d).map heading ++ ["at limit"]), d.map (printRow g7 g2 obj (columnKeys d))⟩ := by
  have hm : "value" ∈ columnKeys d := (mem_columnKeys d _).2 hv
  have hidx : ("name" :: (columnKeys d ++ ["at limit"])).set (("name" :: (columnKeys d ++ ["at limit"])).idxOf "value")
      "value  (rounded)" = "name" :: ((columnKeys d).map heading ++ ["at limit"]) := by
    rw [List.idxOf_cons_ne _ (by decide), List.set_cons_succ, List.idxOf_append_of_mem hm,
      List.set_append_left _ _ (List.idxOf_lt_length_of_mem hm), set_idxOf (columnKeys_nodup d) hm]
    rfl
  unfold printTable
  simp only
  rw [if_pos (by simp [hm]), hidx]

/-! ## The property -/

/-- C308: one row for each parameter in their order; the headings are "name", those of the keys that some parameter has, each once with
the value first, and "at limit"; each row has the name of its parameter, and under each heading what the parameter has for that key, or a
blank. -/
theorem printed_table (g7 g2 : ℚ → String) (obj : Par → Args.PObj) (d : List (Key × List (String × Entry))) (hne : d ≠ [])
    (hv : ∀ e ∈ d, "value" ∈ e.2.map (·.1)) (hr : ∀ k, HasKey d k → ¬ Reserved k) :
    ∃ t, printTable g7 g2 obj d = .ok t ∧ t.heads.Nodup ∧ t.heads[0]? = some "name" ∧ t.heads[1]? = some "value  (rounded)" ∧
      t.heads.getLast? = some "at limit" ∧
      (∀ h, h ∈ t.heads ↔ h = "name" ∨ h = "at limit" ∨ ∃ k, HasKey d k ∧ h = heading k) ∧
      t.rows.length = d.length ∧
      ∀ (i : ℕ) (e : Key × List (String × Entry)), d[i]? = some e → ∃ row, t.rows[i]? = some row ∧ t.cell row "name" = some e.1.label ∧
        ∀ k, HasKey d k → t.cell row (heading k) = some (match dictGet e.2 k with
          | some v => formatValue g7 g2 v
          | none => " ") := by
  obtain ⟨e0, rest, hd⟩ := List.exists_cons_of_ne_nil hne
  have hval : HasKey d "value" := ⟨e0, by simp [hd], hv e0 (by simp [hd])⟩
  have hcn := columnKeys_nodup d
  have hres : ∀ k ∈ columnKeys d, ¬ Reserved k := fun k hk => hr k ((mem_columnKeys d k).1 hk)
  have hhead : ∀ k ∈ columnKeys d, heading k ≠ "name" ∧ heading k ≠ "at limit" := by
    intro k hk
    unfold heading
    split
    · exact ⟨by decide, by decide⟩
    · exact ⟨fun h => hres k hk (.inl h), fun h => hres k hk (.inr (.inl h))⟩
  have hmapn : ((columnKeys d).map heading).Nodup :=
    List.Nodup.map_on (fun a ha b hb h => heading_inj (hres a ha) (hres b hb) h) hcn
  have hnd : ("name" :: ((columnKeys d).map heading ++ ["at limit"])).Nodup := by
    rw [List.nodup_cons, List.nodup_append]
    refine ⟨?_, hmapn, by simp, ?_⟩
    · simp only [List.mem_append, List.mem_map, List.mem_singleton]
      rintro (⟨k, hk, h⟩ | h)
      · exact (hhead k hk).1 h
      · exact absurd h (by decide)
    · intro a ha b hb
      obtain ⟨k, hk, rfl⟩ := List.mem_map.1 ha
      rw [List.mem_singleton] at hb
      rw [hb]
      exact (hhead k hk).2
  refine ⟨_, printTable_ok g7 g2 obj hval, hnd, rfl, ?_, ?_, ?_, by simp, ?_⟩
  · have h0 := columnKeys_first hval
    rw [List.getElem?_eq_some_iff] at h0
    obtain ⟨hlt, h0⟩ := h0
    simp only [List.getElem?_cons_succ]
    rw [List.getElem?_append_left (by simpa using hlt), List.getElem?_map, List.getElem?_eq_getElem hlt, h0]
    rfl
  · rw [← List.cons_append, List.getLast?_append]
    simp
  · intro h
    simp only [List.mem_cons, List.mem_append, List.mem_map, List.not_mem_nil, or_false]
    constructor
    · rintro (h | ⟨k, hk, rfl⟩ | h)
      · exact .inl h
      · exact .inr (.inr ⟨k, (mem_columnKeys d k).1 hk, rfl⟩)
      · exact .inr (.inl h)
    · rintro (h | h | ⟨k, hk, rfl⟩)
      · exact .inl h
      · exact .inr (.inr h)
      · exact .inr (.inl ⟨k, (mem_columnKeys d k).2 hk, rfl⟩)
  · intro i e he
    refine ⟨printRow g7 g2 obj (columnKeys d) e, by simp [he], ?_, ?_⟩
    · simp [Table.cell, printRow]
    · intro k hk
      have hkc := (mem_columnKeys d k).2 hk
      obtain ⟨j, hj, hjk⟩ := List.getElem_of_mem hkc
      have hidx : ("name" :: ((columnKeys d).map heading ++ ["at limit"])).idxOf (heading k) = j + 1 := by
        have hlt : j + 1 < ("name" :: ((columnKeys d).map heading ++ ["at limit"])).length := by
          simp; omega
        have := hnd.idxOf_getElem (j + 1) hlt
        rw [← this]
        congr 1
        simp only [List.getElem_cons_succ]
        rw [List.getElem_append_left (by simpa using hj), List.getElem_map, hjk]
      unfold Table.cell
      rw [hidx]
      unfold printRow
      rw [List.getElem?_cons_succ, List.getElem?_append_left (by simpa using hj), List.getElem?_map,
        List.getElem?_eq_getElem hj, hjk]
      rw [Option.map_some]
      cases dictGet e.2 k <;> rfl

/-- C308, the column "at limit": right while the parameter has the value of the result.  Missing: the parameter has been changed since
(`printed_limit_violated`); the result has been frozen (`printed_frozen_violated`). -/
theorem printed_limit_partial (g7 g2 : ℚ → String) (obj : Par → Args.PObj) (d : List (Key × List (String × Entry)))
    (hv : ∀ e ∈ d, "value" ∈ e.2.map (·.1)) (hr : ∀ k, HasKey d k → ¬ Reserved k) (p : Par) (entries : List (String × Entry)) (v : ℚ)
    (i : ℕ) (he : d[i]? = some (.par p, entries)) (hval : dictGet entries "value" = some (.num v)) (hcur : (obj p).value = v) :
    ∃ t row, printTable g7 g2 obj d = .ok t ∧ t.rows[i]? = some row ∧
      t.cell row "at limit" = some (if (obj p).checkAtLimit v false then "True" else "False") := by
  have hmem := List.mem_of_getElem? he
  have hk : HasKey d "value" := ⟨_, hmem, hv _ hmem⟩
  refine ⟨_, printRow g7 g2 obj (columnKeys d) (.par p, entries), printTable_ok g7 g2 obj hk, by simp [he], ?_⟩
  have hidx : ("name" :: ((columnKeys d).map heading ++ ["at limit"])).idxOf "at limit" = (columnKeys d).length + 1 := by
    rw [List.idxOf_cons_ne _ (by decide), List.idxOf_append_of_notMem]
    · simp
    · intro h
      obtain ⟨k, hk, hh⟩ := List.mem_map.1 h
      unfold heading at hh
      split at hh
      · exact absurd hh (by decide)
      · exact hr k ((mem_columnKeys d k).1 hk) (.inr (.inl hh))
  unfold Table.cell
  rw [hidx]
  unfold printRow
  rw [List.getElem?_cons_succ, List.getElem?_append_right (by simp)]
  simp [Args.PObj.atLimit, hcur]

/-- C308 is violated by the column "at limit": a fit that ended at the limit is printed as not at the limit once the parameter has been set
to another value. -/
theorem printed_limit_violated :
    ∃ (obj : Par → Args.PObj) (p : Par) (v : ℚ), (obj p).checkAtLimit v false = true ∧
      printTable (fun _ => "10") (fun _ => "") obj [(.par p, [("value", .num v)])] =
        .ok ⟨["name", "value  (rounded)", "at limit"], [["mu", "10", "False"]]⟩ := by
  refine ⟨fun _ => ⟨"mu", 5, some (.fin 0), some (.fin 10), true, none, none⟩, ⟨0, "mu"⟩, 10, ?_, ?_⟩ <;> decide +kernel

/-- C308 is violated by a frozen result: there is the heading, but no cell under it. -/
theorem printed_frozen_violated (g7 g2 : ℚ → String) (obj : Par → Args.PObj) (s : String) (v : ℚ) :
    ∃ t row, printTable g7 g2 obj [(.name s, [("value", .num v)])] = .ok t ∧ t.rows = [row] ∧ "at limit" ∈ t.heads ∧
      t.cell row "at limit" = none := by
  refine ⟨_, _, printTable_ok g7 g2 obj ⟨_, List.mem_singleton.2 rfl, by simp⟩, rfl, by simp, ?_⟩
  have : columnKeys [(Key.name s, [("value", Entry.num v)])] = ["value"] := by simp [columnKeys, addNew]
  unfold Table.cell printRow
  rw [this]
  simp [heading]

/-- C308, the two sides of an asymmetric error: each with its sign and its size, if the upper one is not negative.  Missing: a negative
upper one (`printed_upper_violated`). -/
theorem printed_errors_partial (g7 g2 : ℚ → String) (l u : ℚ) (hu : 0 ≤ u) :
    formatValue g7 g2 (.asym l u) =
      (if 0 ≤ l then "+" else "-") ++ padTo 7 (g2 |l|) ++ "   " ++ ("+" ++ padTo 7 (g2 |u|)) ∧
      (l ≤ 0 → formatValue g7 g2 (.asym l u) = signOf l ++ padTo 7 (g2 (-l)) ++ "   " ++ ("+" ++ padTo 7 (g2 u))) := by
  have hs : signOf l = if 0 ≤ l then "+" else "-" := by
    unfold signOf
    split
    · rename_i h; rw [if_neg (not_le.2 h)]
    · rename_i h; rw [if_pos (not_lt.1 h)]
  have hsu : signOf u = "+" := by
    unfold signOf
    rw [if_neg (not_lt.2 hu)]
  refine ⟨?_, fun hl => ?_⟩
  · simp only [formatValue, hs, hsu, abs_of_nonneg hu]
  · simp only [formatValue, hsu, abs_of_nonpos hl]

/-- C308 is violated by an upper error that is negative: it is printed with two signs. -/
theorem printed_upper_violated : ∃ g2 : ℚ → String, g2 (-1) = "    -1" ∧ g2 1 = "     1" ∧
    formatValue (fun _ => "") g2 (.asym (-1) (-1)) = "-      1   -     -1" := by
  refine ⟨fun x => if x = 1 then "     1" else "    -1", by decide +kernel, by decide +kernel, by decide +kernel⟩

/-- Non-vacuity: two parameters, one of which has asymmetric errors under a name of its own, entered before those of `hesse`. -/
example :
    printTable (fun x => if x = 10 then " 10" else " 3") (fun x => if x = 1 then "     1" else "     2")
      (fun p => ⟨p.name, if p.id = 0 then 10 else 3, some (.fin 0), some (.fin 10), true, none, none⟩)
      [(.par ⟨0, "mu"⟩, [("value", .num 10), ("minos", .asym (-1) 2), ("hesse", .sym 1)]),
       (.par ⟨1, "sigma"⟩, [("value", .num 3), ("hesse", .sym 2)])] =
      .ok ⟨["name", "value  (rounded)", "hesse", "minos", "at limit"],
        [["mu", " 10", "+/-       1", "-      1   +      2", "True"], ["sigma", " 3", "+/-       2", " ", "False"]]⟩ := by
  decide +kernel

end Zfit.Acc
