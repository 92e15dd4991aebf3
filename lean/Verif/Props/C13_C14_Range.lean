import Verif.Lemmas.Range
/-! C13 (page ranges) and C14 (table position strings). -/
namespace Verif
open Spec

/-! ## C13 -/

theorem optText_free {t : OptText} (h : t.Ok) {sep : Char} (hs : sep = ',' ∨ sep = ':' ∨ sep = ';') :
    sep ∉ t.text := by
  cases t with
  | blank s => exact blank_free h hs
  | num t => exact intText_free h hs

theorem intOr_ne {s : Str} (h : strip s ≠ []) (d : Int) : intOr d s = parseInt s := if_neg h

theorem intOr_text {t : OptText} (h : t.Ok) (d : Int) : intOr d t.text = .ok (t.val.getD d) := by
  cases t with
  | blank s => exact if_pos (strip_strip_blank h)
  | num t => exact (intOr_ne (intText_strip_ne h) d).trans (parseInt_text h)

theorem parseRangePart_ok {it : PageItem} (h : it.Ok) :
    ∃ r, parseRangePart it.text = .ok r ∧ r.step ≠ 0 ∧
      ∀ n, InRange r.start r.stop r.step n ↔ it.Means n := by
  cases it with
  | one t =>
    refine ⟨⟨t.val, t.val + 1, 1⟩, ?_, by simp, ?_⟩
    · simp only [parseRangePart, PageItem.text]
      rw [splitOn_free (intText_free h (by simp))]
      simp only [parseInt_strip, parseInt_text h]
      rfl
    · intro n
      simp only [PageItem.Means]
      rw [inRange_pos (by omega)]
      omega
  | two a b =>
    refine ⟨⟨a.val.getD 0, b.val, 1⟩, ?_, by simp, fun n => Iff.rfl⟩
    simp only [parseRangePart, PageItem.text]
    rw [splitOn_joinWith (by simp) (by
      intro s hs
      simp only [List.mem_cons, List.not_mem_nil, or_false] at hs
      rcases hs with rfl | rfl
      · exact optText_free h.1 (by simp)
      · exact intText_free h.2 (by simp))]
    simp only [intOr_text h.1, parseInt_strip, parseInt_text h.2]
    rfl
  | three a b c =>
    refine ⟨⟨a.val.getD 0, b.val, c.val⟩, ?_, h.2.2.2, fun n => Iff.rfl⟩
    simp only [parseRangePart, PageItem.text]
    rw [splitOn_joinWith (by simp) (by
      intro s hs
      simp only [List.mem_cons, List.not_mem_nil, or_false] at hs
      rcases hs with rfl | rfl | rfl
      · exact optText_free h.1 (by simp)
      · exact intText_free h.2.1 (by simp)
      · exact intText_free h.2.2.1 (by simp))]
    simp only [intOr_text h.1, parseInt_strip, parseInt_text h.2.1, parseInt_text h.2.2.1]
    simp [bind, Except.bind, mkRange, h.2.2.2]

theorem pageItem_free {it : PageItem} (h : it.Ok) : ',' ∉ it.text := by
  cases it with
  | one t => exact intText_free h (by simp)
  | two a b =>
    have h1 := optText_free h.1 (sep := ',') (by simp)
    have h2 := intText_free h.2 (sep := ',') (by simp)
    simp [PageItem.text, joinWith, h1, h2]
  | three a b c =>
    have h1 := optText_free h.1 (sep := ',') (by simp)
    have h2 := intText_free h.2.1 (sep := ',') (by simp)
    have h3 := intText_free h.2.2.1 (sep := ',') (by simp)
    simp [PageItem.text, joinWith, h1, h2, h3]

/-- C13: page `n` is in the set parsed from a comma-separated list of integers and ranges exactly when
it is one of the integers or an element of one of the ranges. -/
theorem C13_page_ranges (items : List PageItem) (hne : items ≠ []) (hok : ∀ it ∈ items, it.Ok) :
    ∃ rs, parseRangeString (joinWith ',' (items.map PageItem.text)) = .ok rs ∧
      ∀ n, multiContains rs n = true ↔ ∃ it ∈ items, it.Means n := by
  have hsplit : splitOn ',' (joinWith ',' (items.map PageItem.text)) = items.map PageItem.text := by
    apply splitOn_joinWith
    · simpa using hne
    · intro s hs
      obtain ⟨it, hit, rfl⟩ := List.mem_map.1 hs
      exact pageItem_free (hok it hit)
  rw [parseRangeString, hsplit]
  clear hsplit hne
  induction items with
  | nil => exact ⟨[], rfl, by simp [multiContains]⟩
  | cons it items ih =>
    obtain ⟨rs, h1, h2⟩ := ih fun it h => hok it (by simp [h])
    obtain ⟨r, h3, h4, h5⟩ := parseRangePart_ok (hok it (by simp))
    refine ⟨r :: rs, ?_, ?_⟩
    · simp only [List.map_cons, parseRanges, h3, h1]; rfl
    · intro n
      have := h2 n
      simp only [multiContains, List.any_cons, Bool.or_eq_true, List.mem_cons, exists_eq_or_imp] at this ⊢
      rw [this, contains_iff h4, h5]

/-- C13: a range with an empty stop or step (blanks only), or with step zero, is rejected. -/
theorem C13_rejected (s part first second : Str) (rest : List Str) (hp : part ∈ splitOn ',' s)
    (hs : splitOn ':' part = first :: second :: rest)
    (hbad : Blank second ∨ (∃ t l, rest = t :: l ∧ Blank t) ∨
      (∃ (t : IntText), rest = [t.text] ∧ t.Ok ∧ t.val = 0)) :
    ∃ e, parseRangeString s = .error e := by
  have hempty : parseInt [] = .error .valueError := rfl
  have hpart : ∃ e, parseRangePart part = .error e := by
    simp only [parseRangePart, hs]
    cases intOr 0 first with
    | error e => exact ⟨e, rfl⟩
    | ok a =>
      rcases hbad with hb | ⟨t, l, rfl, hb⟩ | ⟨t, rfl, hb, h0⟩
      · rw [strip_strip_blank hb, hempty]; exact ⟨_, rfl⟩
      · cases parseInt (strip second) with
        | error e => exact ⟨e, rfl⟩
        | ok b => simp only [strip_strip_blank hb, hempty]; exact ⟨_, rfl⟩
      · cases parseInt (strip second) with
        | error e => exact ⟨e, rfl⟩
        | ok b =>
          simp only [parseInt_strip, parseInt_text hb, h0]; exact ⟨_, rfl⟩
  rw [parseRangeString]
  generalize splitOn ',' s = l at hp
  induction l with
  | nil => simp at hp
  | cons q l ih =>
    rcases List.mem_cons.1 hp with rfl | hp
    · obtain ⟨e, he⟩ := hpart
      exact ⟨e, by simp only [parseRanges, he]; rfl⟩
    · obtain ⟨e, he⟩ := ih hp
      simp only [parseRanges]
      cases parseRangePart q with
      | error e => exact ⟨e, rfl⟩
      | ok r => simp only [he]; exact ⟨e, rfl⟩

example : parseRangeString c!"1, 3:9:3,-2" = .ok [⟨1, 2, 1⟩, ⟨3, 9, 3⟩, ⟨-2, -1, 1⟩] := by rfl
/-- a concrete instance of the hypotheses of `C13_page_ranges`: the string `"1, :9:3"` -/
example : joinWith ',' ([PageItem.one ⟨[], 1, []⟩,
    .three (.blank c!" ") ⟨[], 9, []⟩ ⟨[], 3, []⟩].map PageItem.text) = c!"1, :9:3" ∧
    PageItem.Ok (.three (.blank c!" ") ⟨[], 9, []⟩ ⟨[], 3, []⟩) := by
  constructor
  · rfl
  · simp [PageItem.Ok, OptText.Ok, IntText.Ok, Blank]
example : parseRangeString c!"3:" = .error .valueError := by rfl

/-! ## C14 -/

/-- the range branch of `parse_range_string` on a written range -/
theorem tableIndexes_span {a b : OptText} {c : Option OptText} (ha : a.Ok) (hb : b.Ok)
    (hc : ∀ t ∈ c, t.Ok) (count : Nat) (h0 : ((c.bind OptText.val).getD 1) ≠ 0) :
    tableIndexes (joinWith ':' ([a.text, b.text] ++ (c.map OptText.text).toList)) count =
      .ok (PyRange.toList ⟨fromCount count (a.val.getD 0), fromCount count (b.val.getD count),
        (c.bind OptText.val).getD 1⟩) := by
  have hfree : ∀ s ∈ [a.text, b.text] ++ (c.map OptText.text).toList, ':' ∉ s := by
    intro s hs
    simp only [List.mem_append, List.mem_cons, List.not_mem_nil, or_false, Option.mem_toList,
      Option.map_eq_some_iff] at hs
    rcases hs with (rfl | rfl) | ⟨t, ht, rfl⟩
    · exact optText_free ha (by simp)
    · exact optText_free hb (by simp)
    · exact optText_free (hc t ht) (by simp)
  have hmem : ':' ∈ joinWith ':' ([a.text, b.text] ++ (c.map OptText.text).toList) := by
    simp only [List.cons_append, joinWith]
    simp
  have hnil : joinWith ':' ([a.text, b.text] ++ (c.map OptText.text).toList) ≠ [] := by
    intro h; rw [h] at hmem; simp at hmem
  simp only [tableIndexes]
  rw [if_neg hnil, if_pos hmem, tableRange, splitOn_joinWith (by simp) hfree]
  cases c with
  | none =>
    simp only [List.cons_append, List.nil_append, Option.map_none, Option.toList_none, intOr_text ha,
      intOr_text hb]
    rfl
  | some c =>
    simp only [Option.bind_some] at h0
    simp only [List.cons_append, List.nil_append, Option.map_some, Option.toList_some, intOr_text ha,
      intOr_text hb, intOr_text (hc c rfl)]
    simp only [bind, Except.bind, mkRange, Option.bind]
    rw [if_neg h0]
    rfl

theorem fromCount_eq {count : Nat} {x step : Int} (h1 : -(count : Int) ≤ x) (h2 : x < count) :
    fromCount count x = clipEnd count step x := by
  simp only [fromCount, clipEnd]
  by_cases h : x < 0
  · rw [if_neg (by omega), if_pos h, if_neg (by omega)]; omega
  · rw [if_pos (by omega), if_neg h, if_neg (by omega)]

theorem fromCount_hi {count : Nat} {x step i : Int} (hs : 0 < step) (h0 : 0 ≤ i) (hi : i < count) :
    i < fromCount count x ↔ i < clipEnd count step x := by
  simp only [fromCount, clipEnd, sliceLo, sliceHi]
  rw [if_neg (by omega : ¬ step < 0), if_neg (by omega : ¬ step < 0)]
  by_cases h : x < 0
  · rw [if_neg (by omega), if_pos h]; split <;> omega
  · rw [if_pos (by omega), if_neg h]; split <;> omega

theorem fromCount_lo {count : Nat} {x step i : Int} (hs : 0 < step) (h0 : 0 ≤ i) (hi : i < count) :
    fromCount count x ≤ i ↔ clipEnd count step x ≤ i := by
  simp only [fromCount, clipEnd, sliceLo, sliceHi]
  rw [if_neg (by omega : ¬ step < 0), if_neg (by omega : ¬ step < 0)]
  by_cases h : x < 0
  · rw [if_neg (by omega), if_pos h]; split <;> omega
  · rw [if_pos (by omega), if_neg h]; split <;> omega

theorem fromCount_lo_neg {count : Nat} {x step i : Int} (hs : step < 0) (h0 : 0 ≤ i) (hi : i < count) :
    fromCount count x < i ↔ clipEnd count step x < i := by
  simp only [fromCount, clipEnd, sliceLo, sliceHi]
  rw [if_pos hs, if_pos hs]
  by_cases h : x < 0
  · rw [if_neg (by omega), if_pos h]; split <;> omega
  · rw [if_pos (by omega), if_neg h]; split <;> omega

theorem fromCount_hi_neg {count : Nat} {x step i : Int} (hs : step < 0) (h0 : 0 ≤ i) (hi : i < count) :
    i ≤ fromCount count x ↔ i ≤ clipEnd count step x := by
  simp only [fromCount, clipEnd, sliceLo, sliceHi]
  rw [if_pos hs, if_pos hs]
  by_cases h : x < 0
  · rw [if_neg (by omega), if_pos h]; split <;> omega
  · rw [if_pos (by omega), if_neg h]; split <;> omega

/-- C14, ranges, partial: for the strings `a:b`, `a:b:c` (each number present or blank) the in-range
indexes selected are those of the Python slice, when
* the step is positive, and the start is blank, or not below `-count`, or the step is 1; or
* the step is negative, both ends are written, and the start is below `count` or the step is -1.
Missing for the full statement: starts outside of the table with a step other than ±1, and blank ends
with a negative step. In those cases the code deviates from the slice (`C14_slices_false`). -/
theorem C14_slices_partial (a b : OptText) (c : Option OptText) (ha : a.Ok) (hb : b.Ok)
    (hc : ∀ t ∈ c, t.Ok) (count : Nat)
    (hstep : let step := (c.bind OptText.val).getD 1
      (0 < step ∧ (∀ x ∈ a.val, -(count : Int) ≤ x ∨ step = 1)) ∨
      (step < 0 ∧ b.val.isSome ∧ ∃ x ∈ a.val, x < count ∨ step = -1)) :
    ∃ is, tableIndexes (joinWith ':' ([a.text, b.text] ++ (c.map OptText.text).toList)) count = .ok is ∧
      ∀ i : Int, 0 ≤ i → i < count →
        (i ∈ is ↔ Selected count a.val b.val (c.bind OptText.val) i) := by
  simp only at hstep
  rw [tableIndexes_span ha hb hc count (by rcases hstep with h | h <;> omega)]
  refine ⟨_, rfl, ?_⟩
  intro i hi0 hi1
  rw [toList_mem (by simp only; rcases hstep with h | h <;> omega)]
  simp only [Selected]
  revert hstep
  generalize (c.bind OptText.val).getD 1 = step
  generalize a.val = av
  generalize b.val = bv
  clear hc ha hb
  intro hstep
  rcases hstep with ⟨hpos, hst⟩ | ⟨hneg, hbs, x, hx, hst⟩
  · rw [inRange_pos hpos, inRange_pos hpos]
    have hb' : i < fromCount count (bv.getD count) ↔ i < sliceStop count step bv := by
      cases bv with
      | none => simp only [Option.getD_none, fromCount, sliceStop]; split <;> split <;> omega
      | some y => exact fromCount_hi hpos hi0 hi1
    rw [hb']
    cases av with
    | none =>
      have h0 : fromCount count 0 = 0 := by simp [fromCount]
      simp only [Option.getD_none, h0, sliceStart]
      rw [if_neg (by omega : ¬ step < 0)]
    | some x =>
      simp only [Option.getD_some, sliceStart]
      rcases hst x rfl with h | h
      · by_cases hxc : x < count
        · rw [fromCount_eq h hxc]
        · have e1 : ¬ (fromCount count x ≤ i) := by
            simp only [fromCount]; split <;> omega
          have e2 : ¬ (clipEnd count step x ≤ i) := by
            simp only [clipEnd, sliceHi]
            rw [if_neg (by omega), if_pos (by omega), if_neg (by omega)]; omega
          simp [e1, e2]
      · subst h
        have hx := fromCount_lo (count := count) (x := x) (by omega : (0 : Int) < 1) hi0 hi1
        rw [hx]
        omega
  · rw [inRange_neg hneg, inRange_neg hneg]
    obtain ⟨y, hy⟩ := Option.isSome_iff_exists.1 hbs
    subst hy
    simp only [Option.mem_def] at hx
    subst hx
    simp only [Option.getD_some, sliceStart, sliceStop]
    rw [fromCount_lo_neg (x := y) hneg hi0 hi1]
    rcases hst with h | h
    · by_cases hxc : -(count : Int) ≤ x
      · rw [fromCount_eq hxc h]
      · have e1 : ¬ (i ≤ fromCount count x) := by
          simp only [fromCount]; split <;> omega
        have e2 : ¬ (i ≤ clipEnd count step x) := by
          simp only [clipEnd, sliceLo]
          rw [if_pos (by omega), if_pos (by omega), if_pos hneg]; omega
        simp [e1, e2]
    · subst h
      have hx := fromCount_hi_neg (count := count) (x := x) (by omega : (-1 : Int) < 0) hi0 hi1
      have hm : ∀ z : Int, z % (-1) = 0 := by intro z; rw [Int.emod_neg]; omega
      rw [hx, hm, hm]

/-- C14 is false in general: `-10::2` on five rows selects rows 1 and 3 while the slice selects
0, 2 and 4; and `::-1` selects nothing while the slice selects every index. -/
theorem C14_slices_false :
    (tableIndexes c!"-10::2" 5 = .ok [-5, -3, -1, 1, 3] ∧ Selected 5 (some (-10)) none (some 2) 4 ∧
      ¬ Selected 5 (some (-10)) none (some 2) 3) ∧
    (tableIndexes c!"::-1" 3 = .ok [] ∧ Selected 3 none none (some (-1)) 2) := by
  refine ⟨⟨by rfl, ?_, ?_⟩, by rfl, ?_⟩
  · exact ⟨2, by decide, by decide⟩
  · simp only [Selected, Option.getD_some]
    rw [inRange_pos (by decide)]
    decide
  · exact ⟨0, by decide, by decide⟩

/-- C14, an empty part: exactly the indexes of the table. -/
theorem C14_empty_part (count : Nat) :
    ∃ is, tableIndexes [] count = .ok is ∧ ∀ i : Int, i ∈ is ↔ 0 ≤ i ∧ i < count := by
  have e : tableIndexes [] count = tableIndexes (joinWith ':' ([(OptText.blank []).text, (OptText.blank []).text] ++ [])) count := rfl
  have h := tableIndexes_span (a := .blank []) (b := .blank []) (c := none) (by intro c hc; cases hc) (by intro c hc; cases hc)
    (by intro t ht; cases ht) count (by decide)
  rw [e]
  refine ⟨_, h, fun i => ?_⟩
  rw [toList_mem (by simp)]
  simp only [OptText.val, Option.bind_none, Option.getD_none]
  rw [inRange_pos (by decide)]
  simp only [fromCount]
  omega

example : tableIndexes [] 3 = .ok [0, 1, 2] := by rfl

theorem parseIndexes_ok (count : Nat) : ∀ (xs : List IntText), (∀ x ∈ xs, x.Ok) →
    parseIndexes count (xs.map IntText.text) =
      .ok (xs.map fun x => if x.val < 0 then (count : Int) + x.val else x.val)
  | [], _ => rfl
  | x :: xs, h => by
    simp only [List.map_cons, parseIndexes, parseInt_text (h x (by simp)),
      parseIndexes_ok count xs fun x hx => h x (by simp [hx])]
    rfl

/-- C14, comma lists: exactly the listed indexes, negatives counted from the end. -/
theorem C14_index_list (xs : List IntText) (hne : xs ≠ []) (hok : ∀ x ∈ xs, x.Ok) (count : Nat) :
    ∃ is, tableIndexes (joinWith ',' (xs.map IntText.text)) count = .ok is ∧
      is.length = xs.length ∧ ∀ i, i ∈ is ↔ ∃ x ∈ xs, Indexed count x.val i := by
  have hfree : ∀ s ∈ xs.map IntText.text, ',' ∉ s := by
    intro s hs
    obtain ⟨x, hx, rfl⟩ := List.mem_map.1 hs
    exact intText_free (hok x hx) (by simp)
  have hmem : ':' ∉ joinWith ',' (xs.map IntText.text) := by
    clear hne hfree
    induction xs with
    | nil => simp [joinWith]
    | cons x xs ih =>
      have h1 := intText_free (hok x (by simp)) (sep := ':') (by simp)
      have h2 := ih fun x hx => hok x (by simp [hx])
      cases xs with
      | nil => simpa [joinWith] using h1
      | cons y ys =>
        simp only [List.map_cons, joinWith] at h2 ⊢
        simp [h1, h2]
  have hnil : joinWith ',' (xs.map IntText.text) ≠ [] := by
    cases xs with
    | nil => exact absurd rfl hne
    | cons x xs =>
      have : x.text ≠ [] := by
        intro h
        have := intText_strip_ne (hok x (by simp))
        rw [h] at this
        exact this rfl
      cases xs with
      | nil => simpa [joinWith] using this
      | cons y ys => simp [joinWith]
  refine ⟨xs.map fun x => if x.val < 0 then (count : Int) + x.val else x.val, ?_, by simp, ?_⟩
  · simp only [tableIndexes]
    rw [if_neg hnil, if_neg hmem, splitOn_joinWith (by simpa using hne) hfree,
      parseIndexes_ok count xs hok]
  · intro i
    simp [Indexed, eq_comm]

example : tableIndexes c!"0, 1,-1" 4 = .ok [0, 1, 3] := by rfl
example : tableIndexes c!"1:-1" 5 = .ok [1, 2, 3] := by rfl
example : joinWith ':' ([OptText.text (.num ⟨[], 1, []⟩), OptText.text (.num ⟨[], -1, []⟩)]
    ++ (none.map OptText.text).toList) = c!"1:-1" := by rfl
/-- a negative step inside the hypotheses: `3:0:-2` -/
example : tableIndexes c!"3:0:-2" 5 = .ok [3, 1] := by rfl

end Verif
