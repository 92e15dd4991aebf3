import Verif.Model.Fonts
import Verif.Spec.FontFile
import Verif.Lemmas.Range
import Verif.Lemmas.Table
import Mathlib.Tactic.Ring
/-! C60 and C61: the widths and characters that an embedded font file is given in the document. -/
namespace Verif
open Spec

/-! ### C60: the array `W` -/

/-- an object of the array as a reader sees it -/
def wElem : Obj → Option (WElem Obj)
  | .int n => some (.int n.toNat)
  | .seq l => some (.arr l)
  | _ => none

/-- the widths that a reader finds in the array -/
def readWObj (l : List Obj) : Option (List (Nat × Obj)) := (l.mapM wElem).bind readW

/-- an item of the array as a reader sees it -/
def WItem.elem (num : Rat → Obj) : WItem → WElem Obj
  | .first g => .int g
  | .widths l => .arr (l.map num)

theorem wElem_items (num : Rat → Obj) (l : List WItem) : (l.map (wObj num)).mapM wElem = some (l.map (WItem.elem num)) := by
  induction l with
  | nil => rfl
  | cons a l ih => cases a <;> simp [wObj, wElem, WItem.elem, ih]

/-- the items so far are whole groups, and the current group is not empty -/
def groups : List (Nat × List Rat) → List WItem
  | [] => []
  | (g, l) :: r => .first g :: .widths l :: groups r

theorem groups_append (a b : List (Nat × List Rat)) : groups (a ++ b) = groups a ++ groups b := by
  induction a with
  | nil => rfl
  | cons x a ih => simp [groups, ih]

/-- the glyphs of a group with their widths -/
def groupPairs (g : Nat × List Rat) : List (Nat × Rat) := g.2.zipIdx.map fun w => (g.1 + w.2, w.1)

theorem readW_groups (num : Rat → Obj) (l : List (Nat × List Rat)) :
    readW ((groups l).map (WItem.elem num)) = some ((l.flatMap groupPairs).map fun p => (p.1, num p.2)) := by
  induction l with
  | nil => rfl
  | cons a l ih =>
    obtain ⟨g, ws⟩ := a
    simp only [groups, List.map_cons, WItem.elem, readW, ih, Option.map_some, List.flatMap_cons, List.map_append, Option.some.injEq]
    congr 1
    simp [groupPairs, List.zipIdx_map, Function.comp_def]

theorem groupPairs_snoc (g : Nat) (ws : List Rat) (w : Rat) : groupPairs (g, ws ++ [w]) = groupPairs (g, ws) ++ [(g + ws.length, w)] := by
  simp [groupPairs, List.zipIdx_append]

/-- the loop with its result as groups -/
def groupLoop : List (Nat × Rat) → List (Nat × List Rat) → List Rat → Nat → List (Nat × List Rat)
  | [], gs, cur, prev => gs ++ [(prev, cur)]
  | (g, w) :: l, gs, cur, prev => if g ≠ prev + 1 then groupLoop l (gs ++ [(prev, cur)]) [w] g else groupLoop l gs (cur ++ [w]) prev

theorem widthLoop_eq : ∀ (l : List (Nat × Rat)) (gs : List (Nat × List Rat)) (cur : List Rat) (prev : Nat),
    (widthLoop l (groups gs ++ [.first prev], cur, prev)).1 ++ [.widths (widthLoop l (groups gs ++ [.first prev], cur, prev)).2.1] =
      groups (groupLoop l gs cur prev) := by
  intro l
  induction l with
  | nil => intro gs cur prev; simp [widthLoop, groupLoop, groups_append, groups]
  | cons a l ih =>
    intro gs cur prev
    obtain ⟨g, w⟩ := a
    have hne : ¬ (groups gs ++ [WItem.first prev] = []) := by simp
    simp only [widthLoop, if_neg hne, groupLoop]
    split
    · rw [← ih (gs ++ [(prev, cur)]) [w] g, groups_append]
      simp [groups]
    · exact ih gs (cur ++ [w]) prev

theorem charWidths_cons (g : Nat) (w : Rat) (l : List (Nat × Rat)) : charWidths ((g, w) :: l) = groups (groupLoop l [] [w] g) := by
  have := widthLoop_eq l [] [w] g
  simpa [charWidths, widthLoop, groups] using this

/-- every glyph is in one of the groups with its width, as long as equal glyphs have equal widths -/
theorem groupLoop_complete (f : Nat → Rat) : ∀ (l : List (Nat × Rat)) (gs : List (Nat × List Rat)) (cur : List Rat) (prev : Nat),
    (∀ p ∈ l, p.2 = f p.1) → (cur.length = 1 ∨ cur.length = 0 → cur ≠ [] ) → (∀ w, 1 < cur.length → cur[1]? = some w → w = f (prev + 1)) →
    (∀ p, p ∈ (gs.flatMap groupPairs ++ groupPairs (prev, cur)) → p ∈ (groupLoop l gs cur prev).flatMap groupPairs) ∧
    ∀ p ∈ l, p ∈ (groupLoop l gs cur prev).flatMap groupPairs := by
  intro l
  induction l with
  | nil =>
    intro gs cur prev _ _ _
    refine ⟨fun p hp => by simpa [groupLoop] using hp, by simp⟩
  | cons a l ih =>
    intro gs cur prev hf hc h1
    obtain ⟨g, w⟩ := a
    have hw : w = f g := hf (g, w) List.mem_cons_self
    have hf' : ∀ p ∈ l, p.2 = f p.1 := fun p hp => hf p (List.mem_cons_of_mem _ hp)
    simp only [groupLoop]
    split
    · obtain ⟨a1, a2⟩ := ih (gs ++ [(prev, cur)]) [w] g hf' (by simp) (by simp)
      refine ⟨fun p hp => a1 p (by simp only [List.flatMap_append, List.flatMap_cons, List.flatMap_nil, List.append_nil]; exact List.mem_append_left _ hp), ?_⟩
      intro p hp
      rcases List.mem_cons.1 hp with rfl | hp
      · exact a1 _ (by simp [groupPairs])
      · exact a2 p hp
    · rename_i hg
      have hg : g = prev + 1 := by omega
      subst hg
      have hne : cur ≠ [] := by
        intro e; subst e; exact hc (Or.inr rfl) rfl
      obtain ⟨a1, a2⟩ := ih gs (cur ++ [w]) prev hf' (by simp) (by
        intro v hv hv'
        by_cases hl : 1 < cur.length
        · rw [List.getElem?_append_left hl] at hv'
          exact h1 v hl hv'
        · have hl1 : cur.length = 1 := by
            have := List.length_pos_iff.2 hne
            omega
          rw [List.getElem?_append_right (by omega), hl1] at hv'
          simp at hv'
          rw [← hv', hw])
      refine ⟨?_, ?_⟩
      · intro p hp
        refine a1 p ?_
        rw [groupPairs_snoc]
        rcases List.mem_append.1 hp with h | h
        · exact List.mem_append_left _ h
        · exact List.mem_append_right _ (List.mem_append_left _ h)
      · intro p hp
        rcases List.mem_cons.1 hp with rfl | hp
        · refine a1 _ (List.mem_append_right _ ?_)
          by_cases hl : 1 < cur.length
          · have : cur[1]? = some w := by
              rw [hw, List.getElem?_eq_getElem hl, h1 _ hl (List.getElem?_eq_getElem hl)]
            rw [groupPairs_snoc]
            refine List.mem_append_left _ ?_
            exact List.mem_map.2 ⟨(w, 1), List.mem_zipIdx_iff_getElem?.2 this, rfl⟩
          · have hl1 : cur.length = 1 := by
              have := List.length_pos_iff.2 hne
              omega
            rw [groupPairs_snoc, hl1]
            simp
        · exact a2 p hp

/-- with different glyphs, a group has at most two widths and nothing else is in the groups -/
theorem groupLoop_sound : ∀ (l : List (Nat × Rat)) (gs : List (Nat × List Rat)) (cur : List Rat) (prev : Nat),
    ((prev + 1 ∉ l.map Prod.fst) ∨ cur.length = 1) → (l.map Prod.fst).Nodup →
    ∀ p ∈ (groupLoop l gs cur prev).flatMap groupPairs, p ∈ gs.flatMap groupPairs ∨ p ∈ groupPairs (prev, cur) ∨ p ∈ l := by
  intro l
  induction l with
  | nil =>
    intro gs cur prev _ _ p hp
    have : p ∈ gs.flatMap groupPairs ∨ p ∈ groupPairs (prev, cur) := by simpa [groupLoop] using hp
    rcases this with h | h
    · exact .inl h
    · exact .inr (.inl h)
  | cons a l ih =>
    intro gs cur prev hc hn p hp
    obtain ⟨g, w⟩ := a
    simp only [List.map_cons, List.nodup_cons] at hn
    simp only [groupLoop] at hp
    split at hp
    · rcases ih _ _ _ (Or.inr rfl) hn.2 p hp with h | h | h
      · simp only [List.flatMap_append, List.flatMap_cons, List.flatMap_nil, List.append_nil, List.mem_append] at h
        rcases h with h | h
        · exact .inl h
        · exact .inr (.inl h)
      · refine .inr (.inr ?_)
        simp only [groupPairs, List.zipIdx_cons, List.zipIdx_nil, List.map_cons, List.map_nil, List.mem_cons, List.not_mem_nil, or_false, Nat.add_zero] at h
        rw [h]
        exact List.mem_cons_self
      · exact .inr (.inr (List.mem_cons_of_mem _ h))
    · rename_i hg
      have hg : g = prev + 1 := by omega
      subst hg
      have hl : cur.length = 1 := by
        rcases hc with h | h
        · simp at h
        · exact h
      rcases ih _ _ _ (Or.inl hn.1) hn.2 p hp with h | h | h
      · exact .inl h
      · rw [groupPairs_snoc, List.mem_append, hl] at h
        rcases h with h | h
        · exact .inr (.inl h)
        · refine .inr (.inr ?_)
          simp only [List.mem_cons, List.not_mem_nil, or_false] at h
          rw [h]
          exact List.mem_cons_self
      · exact .inr (.inr (List.mem_cons_of_mem _ h))

/-- the array `W` of the descendant font of an embedded font -/
def fontW (b : Base) (id : Nat) : Option (List Obj) :=
  match (b.dictAt id).bind (dget (.str c!"DescendantFonts")) with
  | some (.seq [.ref d]) => match (b.dictAt d.toNat).bind (dget (.str c!"W")) with
    | some (.seq l) => some l
    | _ => none
  | _ => none

/-- the text of the character map of an embedded font -/
def fontCMap (b : Base) (id : Nat) : Option Bytes :=
  match (b.dictAt id).bind (dget (.str c!"ToUnicode")) with
  | some (.ref u) => match (b.dictAt u.toNat).bind (dget kStream) with
    | some (.bytes s) => some s
    | _ => none
  | _ => none

theorem fontW_of {b : Base} {id d : Nat} {l : List Obj}
    (h1 : (b.dictAt id).bind (dget (.str c!"DescendantFonts")) = some (.seq [.ref d]))
    (h2 : (b.dictAt d).bind (dget (.str c!"W")) = some (.seq l)) : fontW b id = some l := by
  unfold fontW
  rw [h1]
  simp only [Int.toNat_natCast, h2]

theorem fontCMap_of {b : Base} {id u : Nat} {s : Bytes}
    (h1 : (b.dictAt id).bind (dget (.str c!"ToUnicode")) = some (.ref u))
    (h2 : (b.dictAt u).bind (dget kStream) = some (.bytes s)) : fontCMap b id = some s := by
  unfold fontCMap
  rw [h1]
  simp only [Int.toNat_natCast, h2]

theorem addTTFont_entries (num : Rat → Obj) (b : Base) (hb : b.Wf) (f : TTFile) :
    fontW (addTTFont num b f).2 (addTTFont num b f).1 = some ((charWidths f.glyphs).map (wObj num)) ∧
    fontCMap (addTTFont num b f).2 (addTTFont num b f).1 = some ((toUnicode f.cmap).map latin1) := by
  unfold addTTFont
  simp only
  generalize hd1 : ([(kFilter, .bytes b!"/FlateDecode"), (kStream, .bytes f.bytes), (.str c!"Length1", .int f.bytes.length)] : List (Key × Obj)) = d1
  generalize hd2 : (dset (.str c!"FontFile2") (.ref (b.addDict d1).1)
    ((kType, .bytes b!"/FontDescriptor") :: (.str c!"FontName", nameBytes f.name) :: f.descriptor) : List (Key × Obj)) = d2
  generalize hd3 : ([(kType, .bytes b!"/Font"), (.str c!"FontDescriptor", .ref ((b.addDict d1).2.addDict d2).1), (kBaseFont, nameBytes f.name),
    (kSubtype, .bytes b!"/CIDFontType2"), (.str c!"CIDToGIDMap", .bytes b!"/Identity"),
    (.str c!"CIDSystemInfo", .dict [(.str c!"Registry", .str c!"Adobe"), (.str c!"Ordering", .str c!"Identity"),
      (.str c!"Supplement", .int 0)]),
    (.str c!"W", .seq ((charWidths f.glyphs).map (wObj num)))] : List (Key × Obj)) = d3
  generalize hd4 : ([(kFilter, .bytes b!"/FlateDecode"), (kStream, .bytes ((toUnicode f.cmap).map latin1))] : List (Key × Obj)) = d4
  have w1 := hb.addDict d1
  have w2 := w1.addDict d2
  have w3 := w2.addDict d3
  have w4 := w3.addDict d4
  generalize hB2 : ((b.addDict d1).2.addDict d2).2 = B2 at *
  generalize hd5 : ([(kType, .bytes b!"/Font"), (kSubtype, .bytes b!"/Type0"), (kBaseFont, nameBytes f.name),
    (kEncoding, .bytes b!"/Identity-H"), (.str c!"DescendantFonts", .seq [.ref (B2.addDict d3).1]),
    (.str c!"ToUnicode", .ref ((B2.addDict d3).2.addDict d4).1)] : List (Key × Obj)) = d5
  have i5 := dictAt_add_self w4 d5
  have c3 : (B2.addDict d3).1 = B2.count := rfl
  have c4 : ((B2.addDict d3).2.addDict d4).1 = (B2.addDict d3).2.count := rfl
  have i3 : (((B2.addDict d3).2.addDict d4).2.addDict d5).2.dictAt (B2.addDict d3).1 = some d3 := by
    rw [dictAt_add_ne w4 d5 (by simp [c3, addDict_count]; omega), dictAt_add_ne w3 d4 (by simp [c3, addDict_count])]
    exact dictAt_add_self w2 d3
  have i4 : (((B2.addDict d3).2.addDict d4).2.addDict d5).2.dictAt ((B2.addDict d3).2.addDict d4).1 = some d4 := by
    rw [dictAt_add_ne w4 d5 (by simp [c4, addDict_count])]
    exact dictAt_add_self w3 d4
  constructor
  · refine fontW_of (d := (B2.addDict d3).1) ?_ ?_
    · rw [show (((B2.addDict d3).2.addDict d4).2.addDict d5).1 = ((B2.addDict d3).2.addDict d4).2.count from rfl, i5, ← hd5]
      simp [dget, kType, kSubtype, kBaseFont, kEncoding]
    · rw [i3, ← hd3]
      simp [dget, kType, kSubtype, kBaseFont]
  · refine fontCMap_of (u := ((B2.addDict d3).2.addDict d4).1) ?_ ?_
    · rw [show (((B2.addDict d3).2.addDict d4).2.addDict d5).1 = ((B2.addDict d3).2.addDict d4).2.count from rfl, i5, ← hd5]
      simp [dget, kType, kSubtype, kBaseFont, kEncoding]
    · rw [i4, ← hd4]
      simp [dget, kFilter, kStream]

/-- the width a glyph has in the document: in thousandths of the size of the font -/
def TTFile.width (f : TTFile) (g : Nat) : Rat := f.advance g * 1000 / f.unitsPerEm

theorem charWidths_read (num : Rat → Obj) {l : List (Nat × Rat)} (hl : l ≠ []) : ∃ gs : List (Nat × List Rat), readWObj ((charWidths l).map (wObj num)) =
    some ((gs.flatMap groupPairs).map fun p => (p.1, num p.2)) ∧
    ((∃ f : Nat → Rat, ∀ p ∈ l, p.2 = f p.1) → ∀ p ∈ l, p ∈ gs.flatMap groupPairs) ∧
    ((l.map Prod.fst).Nodup → ∀ p ∈ gs.flatMap groupPairs, p ∈ l) := by
  obtain ⟨⟨g, w⟩, l, rfl⟩ := List.exists_cons_of_ne_nil hl
  refine ⟨groupLoop l [] [w] g, ?_, ?_, ?_⟩
  · rw [readWObj, wElem_items, Option.bind_some, charWidths_cons, readW_groups]
  · rintro ⟨f, hf⟩ p hp
    obtain ⟨a1, a2⟩ := groupLoop_complete f l [] [w] g (fun p hp => hf p (List.mem_cons_of_mem _ hp)) (by simp) (by simp)
    rcases List.mem_cons.1 hp with rfl | hp
    · exact a1 _ (by simp [groupPairs])
    · exact a2 p hp
  · intro hn p hp
    simp only [List.map_cons, List.nodup_cons] at hn
    rcases groupLoop_sound l [] [w] g (Or.inr rfl) hn.2 p hp with h | h | h
    · simp at h
    · have : p = (g, w) := by simpa [groupPairs] using h
      rw [this]
      exact List.mem_cons_self
    · exact List.mem_cons_of_mem _ h

/-- C60, partial: the array `W` of an embedded font that has a character can be read, and gives every glyph of the font the width of the
font file in thousandths of the font size. If no two characters share a glyph it says nothing else. Missing: fonts where characters share
a glyph, which may give a wrong width to another glyph (`C60_shared_glyph_false`), and fonts without characters (`C60_no_characters_false`). -/
theorem C60_widths_partial (num : Rat → Obj) (b : Base) (hb : b.Wf) (f : TTFile) (hf : f.cmap ≠ []) :
    ∃ W widths, fontW (addTTFont num b f).2 (addTTFont num b f).1 = some W ∧ readWObj W = some widths ∧
      (∀ c g, (c, g) ∈ f.cmap → (g, num (f.width g)) ∈ widths) ∧
      ((f.cmap.map Prod.snd).Nodup → ∀ g o, (g, o) ∈ widths → ∃ c, (c, g) ∈ f.cmap ∧ o = num (f.width g)) := by
  have hw : ∀ g, f.advance g * (1000 / f.unitsPerEm) = f.width g := fun g => by unfold TTFile.width; rw [mul_div_assoc]
  obtain ⟨gs, h1, h2, h3⟩ := charWidths_read num (l := f.glyphs) (by simpa [TTFile.glyphs] using hf)
  refine ⟨_, _, (addTTFont_entries num b hb f).1, h1, ?_, ?_⟩
  · intro c g hc
    refine List.mem_map.2 ⟨(g, f.width g), h2 ⟨f.width, ?_⟩ _ ?_, rfl⟩
    · intro p hp
      obtain ⟨q, _, rfl⟩ := List.mem_map.1 hp
      exact hw _
    · exact List.mem_map.2 ⟨(c, g), hc, by simp [hw]⟩
  · intro hn g o ho
    obtain ⟨p, hp, e⟩ := List.mem_map.1 ho
    have := h3 (by simpa [TTFile.glyphs, Function.comp_def] using hn) p hp
    obtain ⟨q, hq, rfl⟩ := List.mem_map.1 this
    simp only [Prod.mk.injEq] at e
    obtain ⟨rfl, rfl⟩ := e
    exact ⟨q.1, hq, by rw [hw]⟩

private def ex60File (cmap : List (Nat × Nat)) : TTFile := ⟨c!"Nice", [], [], cmap, fun g => 100 * g, 1000⟩
private def ex60 (cmap : List (Nat × Nat)) : Option (List (Nat × Int)) :=
  (readWObj ((charWidths (ex60File cmap).glyphs).map (wObj fun x => .int x.num))).map fun l => l.map fun p => (p.1, match p.2 with
    | .int n => n
    | _ => 0)

/-- three groups -/
example : charWidths (ex60File [(65, 3), (66, 4), (67, 5), (97, 9)]).glyphs =
      [.first 3, .widths [300, 400], .first 5, .widths [500], .first 9, .widths [900]] ∧
    ex60 [(65, 3), (66, 4), (67, 5), (97, 9)] = some [(3, 300), (4, 400), (5, 500), (9, 900)] := by decide +kernel

/-- C60 is violated when characters share a glyph: glyph 5 gets the width of glyph 4. -/
theorem C60_shared_glyph_false : ex60 [(0x200F, 3), (0x2010, 4), (0x2011, 4), (0x2012, 5)] = some [(3, 300), (4, 400), (5, 400), (5, 500)] := by
  decide +kernel

/-- C60 is violated for a font without characters: the array begins with an array. -/
theorem C60_no_characters_false : charWidths (ex60File []).glyphs = [.widths []] ∧ ex60 [] = none := by decide +kernel


/-! ### C61: the character map -/

/-- the text of latin-1 bytes -/
def unLatin (l : Bytes) : Str := l.map fun b => Char.ofNat b.toNat

theorem unLatin_latin1 {s : Str} (h : ∀ c ∈ s, c.toNat < 256) : unLatin (s.map latin1) = s := by
  simp only [unLatin, List.map_map]
  refine (List.map_congr_left fun c hc => ?_).trans (List.map_id s)
  simp [latin1_toNat (h c hc)]

theorem splitOn_append' (sep : Char) (a r : Str) : splitOn sep (a ++ sep :: r) = splitOn sep a ++ splitOn sep r := by
  induction a with
  | nil => simp [splitOn]
  | cons c a ih =>
    simp only [List.cons_append, splitOn]
    by_cases hc : c = sep
    · simp [hc, ih]
    · simp only [hc, if_false, ih]
      cases h : splitOn sep a with
      | nil => exact absurd h (splitOn_ne_nil sep a)
      | cons x l => simp

theorem splitOn_pre {sep : Char} {p : Str} (hp : sep ∉ p) {x h : Str} {t : List Str} (e : splitOn sep x = h :: t) :
    splitOn sep (p ++ x) = (p ++ h) :: t := by
  induction p with
  | nil => exact e
  | cons c p ih =>
    simp only [List.mem_cons, not_or] at hp
    have : c ≠ sep := fun h => hp.1 h.symm
    simp [splitOn, ih hp.2, this]

theorem splitOn_intercalate {sep : Char} {l : List Str} (hne : l ≠ []) (h : ∀ s ∈ l, sep ∉ s) : splitOn sep (List.intercalate [sep] l) = l := by
  have : List.intercalate [sep] l = joinWith sep l := by
    clear hne h
    induction l with
    | nil => rfl
    | cons a l ih => cases l with
      | nil => simp [joinWith]
      | cons b l => rw [List.intercalate_cons_cons, ih]; simp [joinWith]
  rw [this, splitOn_joinWith hne h]

theorem strip_ends {a : Char} {m : Str} {z : Char} (ha : isSpace a = false) (hz : isSpace z = false) : strip (a :: m ++ [z]) = a :: m ++ [z] := by
  simp [strip, List.dropWhile_cons, ha, hz]

theorem hexCharVal_hexUp : ∀ d < 16, hexCharVal (hexUp d) = some d := by decide

theorem hexNum_append (s : Str) (c : Char) : ∀ a, hexNum a (s ++ [c]) = (hexNum a s).bind fun v => (hexCharVal c).bind fun d => some (16 * v + d) := by
  induction s with
  | nil => intro a; simp [hexNum]
  | cons x s ih =>
    intro a
    simp only [List.cons_append, hexNum]
    cases hexCharVal x with
    | none => rfl
    | some d => simp [ih]

theorem hexNum_hexStr (n : Nat) : hexNum 0 (hexStr n) = some n := by
  induction n using Nat.strong_induction_on with
  | _ n ih =>
    rw [hexStr]
    split
    · rename_i h
      simp [hexNum, hexCharVal_hexUp n h]
    · rename_i h
      rw [hexNum_append, ih (n / 16) (by omega), hexCharVal_hexUp _ (Nat.mod_lt _ (by omega))]
      simp only [Option.bind_some, Option.some.injEq]
      omega

theorem hexNum_zeros (k : Nat) (s : Str) : hexNum 0 (List.replicate k '0' ++ s) = hexNum 0 s := by
  induction k with
  | zero => rfl
  | succ k ih =>
    have : hexCharVal '0' = some 0 := by decide
    simp [List.replicate_succ, hexNum, this, ih]

theorem hexNum_zfill (w n : Nat) : hexNum 0 (zfill w (hexStr n)) = some n := by rw [zfill, hexNum_zeros, hexNum_hexStr]

theorem hexStr_length_le : ∀ (k n : Nat), n < 16 ^ (k + 1) → (hexStr n).length ≤ k + 1 := by
  intro k
  induction k with
  | zero => intro n hn; rw [hexStr, dif_pos (by simpa using hn)]; simp
  | succ k ih =>
    intro n hn
    rw [hexStr]
    split
    · simp
    · have := ih (n / 16) (by rw [Nat.div_lt_iff_lt_mul (by omega)]; rwa [Nat.pow_succ] at hn)
      simp only [List.length_append, List.length_cons, List.length_nil]
      omega

theorem hexStr_length_gt : ∀ (k n : Nat), 16 ^ k ≤ n → k < (hexStr n).length := by
  intro k
  induction k with
  | zero => intro n _; rw [hexStr]; split <;> simp
  | succ k ih =>
    intro n hn
    have h16 : 16 ≤ n := by
      have : 16 ^ 1 ≤ 16 ^ (k + 1) := Nat.pow_le_pow_right (by omega) (by omega)
      omega
    rw [hexStr, dif_neg (by omega)]
    have := ih (n / 16) (by rw [Nat.le_div_iff_mul_le (by omega)]; rwa [Nat.pow_succ] at hn)
    simp only [List.length_append, List.length_cons, List.length_nil]
    omega

theorem hexUp_ascii : ∀ d < 16, (hexUp d).toNat < 128 ∧ isSpace (hexUp d) = false ∧ hexUp d ≠ '>' := by decide

theorem hexStr_char (n : Nat) : ∀ c ∈ hexStr n, c.toNat < 128 ∧ isSpace c = false ∧ c ≠ '>' := by
  induction n using Nat.strong_induction_on with
  | _ n ih =>
    intro c hc
    rw [hexStr] at hc
    split at hc
    · rename_i h
      rw [List.mem_singleton.1 hc]
      exact hexUp_ascii n h
    · rcases List.mem_append.1 hc with h | h
      · exact ih (n / 16) (by omega) c h
      · rw [List.mem_singleton.1 h]
        exact hexUp_ascii _ (Nat.mod_lt _ (by omega))

theorem cmapHex_char (n : Nat) : ∀ c ∈ cmapHex n, c.toNat < 128 ∧ isSpace c = false := by
  intro c hc
  simp only [cmapHex, zfill, List.mem_cons, List.mem_append, List.mem_replicate, List.cons_append] at hc
  rcases hc with rfl | (⟨_, rfl⟩ | h) | rfl | h
  · decide
  · decide
  · exact ⟨(hexStr_char n c h).1, (hexStr_char n c h).2.1⟩
  · decide
  · simp at h

theorem inAngles_cmapHex (n : Nat) : inAngles (cmapHex n) = some (zfill 4 (hexStr n)) := by simp [cmapHex, inAngles]

theorem zfill_hex_length {n : Nat} (h : n < 65536) : (zfill 4 (hexStr n)).length = 4 := by
  have := hexStr_length_le 3 n (by simpa using h)
  simp [zfill]; omega

theorem codeOf_cmapHex {n : Nat} (h : n < 65536) : codeOf (cmapHex n) = some n := by
  simp [codeOf, inAngles_cmapHex, zfill_hex_length h, hexNum_zfill]

theorem charOf_cmapHex {n : Nat} (h : n < 65536) (hs : ¬ (0xD800 ≤ n ∧ n < 0xE000)) : charOf (cmapHex n) = some n := by
  simp only [charOf, inAngles_cmapHex, zfill_hex_length h, hexNum_zfill, Option.bind_some, if_true, if_neg hs]

theorem charOf_astral {n : Nat} (h : 0x10000 ≤ n) (h' : n ≤ 0x10FFFF) : charOf (cmapHex n) = none := by
  have h1 := hexStr_length_gt 4 n (by simpa using h)
  have h2 := hexStr_length_le 5 n (by simp; omega)
  have h3 : (zfill 4 (hexStr n)).length = (hexStr n).length := by simp [zfill]; omega
  have h4 : ¬ (zfill 4 (hexStr n)).length = 4 := by omega
  have h5 : ¬ (zfill 4 (hexStr n)).length = 8 := by omega
  simp only [charOf, inAngles_cmapHex, Option.bind_some, if_neg h4, if_neg h5]

/-- a line of the map, of a character and its glyph -/
def mapLine (c : Nat × Nat) : Str := cmapHex c.2 ++ c!" " ++ cmapHex c.1

theorem mapLine_split (c : Nat × Nat) : splitOn ' ' (mapLine c) = [cmapHex c.2, cmapHex c.1] := by
  have h : ∀ n, ' ' ∉ cmapHex n := fun n hn => absurd (cmapHex_char n ' ' hn).2 (by decide)
  have : mapLine c = cmapHex c.2 ++ ' ' :: cmapHex c.1 := by simp [mapLine]
  rw [this, splitOn_append (h _), splitOn_free (h _)]

theorem mapLine_char (c : Nat × Nat) : ∀ x ∈ mapLine c, x.toNat < 128 ∧ x ≠ '\n' := by
  intro x hx
  have h : ∀ n, x ∈ cmapHex n → x.toNat < 128 ∧ x ≠ '\n' := by
    intro n hn
    refine ⟨(cmapHex_char n x hn).1, ?_⟩
    rintro rfl
    exact absurd (cmapHex_char n _ hn).2 (by decide)
  simp only [mapLine, List.mem_append] at hx
  rcases hx with (hx | hx) | hx
  · exact h _ hx
  · rw [List.mem_singleton.1 hx]; decide
  · exact h _ hx

theorem mapLine_strip (c : Nat × Nat) : strip (mapLine c) = mapLine c := by
  have : mapLine c = '<' :: (zfill 4 (hexStr c.2) ++ ['>'] ++ c!" " ++ '<' :: zfill 4 (hexStr c.1)) ++ ['>'] := by
    simp [mapLine, cmapHex]
  rw [this]
  exact strip_ends (by decide) (by decide)

theorem bfLine_ok {c : Nat × Nat} (hg : c.2 < 65536) (hc : c.1 < 65536) (hs : ¬ (0xD800 ≤ c.1 ∧ c.1 < 0xE000)) :
    bfLine (mapLine c) = some (c.2, c.1) := by
  simp [bfLine, mapLine_split, codeOf_cmapHex hg, charOf_cmapHex hc hs]

theorem bfLine_astral {c : Nat × Nat} (h : 0x10000 ≤ c.1) (h' : c.1 ≤ 0x10FFFF) : bfLine (mapLine c) = none := by
  simp [bfLine, mapLine_split, charOf_astral h h']

private def cmapHead : Str := c!"/CIDInit /ProcSet findresource begin\n        12 dict begin\n        begincmap\n        /CIDSystemInfo\n         <</Registry (Adobe)\n           /Ordering (UCS)\n           /Supplement 0\n        >> def\n        /CMapName /Adobe-Identity-UCS def\n        /CMapType 2 def\n        1 begincodespacerange\n        <0000> <FFFF>\n        endcodespacerange"
private def cmapTail : Str := c!"        endbfchar\n        endcmap\n        CMapName currentdict /CMap defineresource pop\n        end\n        end"

set_option maxRecDepth 16000 in
theorem toUnicode_eq (cmap : List (Nat × Nat)) : toUnicode cmap = cmapHead ++ '\n' :: (c!"        " ++ natStr cmap.length ++ c!" beginbfchar" ++
    '\n' :: (c!"        " ++ List.intercalate ['\n'] (cmap.map mapLine) ++ '\n' :: cmapTail)) := by
  have e : toUnicode cmap = (cmapHead ++ '\n' :: c!"        ") ++ natStr cmap.length ++ (c!" beginbfchar" ++ '\n' :: c!"        ") ++
      List.intercalate ['\n'] (cmap.map mapLine) ++ ('\n' :: cmapTail) := rfl
  rw [e]
  simp only [List.append_assoc, List.cons_append, List.nil_append]

/-- the lines of a text that are not blank, without the blanks around them -/
def textLines (s : Str) : List Str := ((splitOn '\n' s).map strip).filter fun l => l ≠ []

theorem textLines_append (a b : Str) : textLines (a ++ '\n' :: b) = textLines a ++ textLines b := by simp [textLines, splitOn_append']

theorem textLines_one {pre s : Str} (hp : Blank pre) (hpn : '\n' ∉ pre) (hs : '\n' ∉ s) (he : strip s = s) (hn : s ≠ []) : textLines (pre ++ s) = [s] := by
  have := strip_pad (s := s) hp (by intro c hc; simp at hc : Blank [])
  rw [List.append_nil, he] at this
  rw [textLines, splitOn_free (by simp [hpn, hs])]
  simp [this, hn]

theorem textLines_entries (cmap : List (Nat × Nat)) : textLines (c!"        " ++ List.intercalate ['\n'] (cmap.map mapLine)) = cmap.map mapLine := by
  cases cmap with
  | nil => decide +kernel
  | cons c l =>
    have h : splitOn '\n' (List.intercalate ['\n'] ((c :: l).map mapLine)) = mapLine c :: l.map mapLine :=
      splitOn_intercalate (by simp) (by
        intro s hs
        obtain ⟨c, _, rfl⟩ := List.mem_map.1 hs
        exact fun h => (mapLine_char c _ h).2 rfl)
    have hm : ∀ c, mapLine c ≠ [] := by intro c; simp [mapLine, cmapHex]
    have hpad := strip_pad (pre := c!"        ") (s := mapLine c) (post := []) (by unfold Blank; decide) (by unfold Blank; decide)
    rw [List.append_nil, mapLine_strip] at hpad
    rw [textLines, splitOn_pre (by decide) h]
    simp only [List.map_cons, hpad, List.map_map]
    have e : (l.map (strip ∘ mapLine)) = l.map mapLine := List.map_congr_left fun c _ => mapLine_strip c
    rw [e]
    refine List.filter_eq_self.2 fun s hs => ?_
    rcases List.mem_cons.1 hs with rfl | hs
    · simp [hm]
    · obtain ⟨c, _, rfl⟩ := List.mem_map.1 hs
      simp [hm]

theorem textLines_toUnicode (cmap : List (Nat × Nat)) : textLines (toUnicode cmap) = textLines cmapHead ++
    (natStr cmap.length ++ c!" beginbfchar") :: (cmap.map mapLine ++ textLines cmapTail) := by
  have hnl : '\n' ∉ natStr cmap.length := fun h => absurd (natStr_nospace h) (by decide)
  have h1 : textLines (c!"        " ++ natStr cmap.length ++ c!" beginbfchar") = [natStr cmap.length ++ c!" beginbfchar"] := by
    rw [List.append_assoc]
    refine textLines_one (by unfold Blank; decide) (by decide) ?_ ?_ (by simp)
    · intro h
      rcases List.mem_append.1 h with h | h
      · exact hnl h
      · exact absurd h (by decide)
    · obtain ⟨a, m, e⟩ := List.exists_cons_of_ne_nil (natStr_ne_nil cmap.length)
      have ha : isSpace a = false := natStr_nospace (n := cmap.length) (by rw [e]; exact List.mem_cons_self)
      have : natStr cmap.length ++ c!" beginbfchar" = a :: (m ++ c!" beginbfcha") ++ ['r'] := by rw [e]; simp
      rw [this]
      exact strip_ends ha (by decide)
  rw [toUnicode_eq, textLines_append, textLines_append, textLines_append, h1, textLines_entries]
  rfl

theorem readBf_skip {a : List Str} (h : ∀ l ∈ a, beginBf l = none) (b : List Str) : readBf none (a ++ b) = readBf none b := by
  induction a with
  | nil => rfl
  | cons x a ih =>
    rw [List.cons_append, readBf, h x List.mem_cons_self]
    exact ih fun l hl => h l (List.mem_cons_of_mem _ hl)

theorem readBf_entries : ∀ (l : List (Nat × Nat)) (t : List Str), (∀ c ∈ l, bfLine (mapLine c) = some (c.2, c.1)) →
    readBf (some l.length) (l.map mapLine ++ t) = (readBf (some 0) t).map (l.map (fun c => (c.2, c.1)) ++ ·) := by
  intro l
  induction l with
  | nil => intro t _; simp
  | cons c l ih =>
    intro t h
    simp only [List.length_cons, List.map_cons, List.cons_append, readBf, h c List.mem_cons_self, Option.bind_some,
      ih t fun c hc => h c (List.mem_cons_of_mem _ hc), Option.map_map, Function.comp_def]

theorem readBf_bad : ∀ (l : List (Nat × Nat)) (t : List Str), (∃ c ∈ l, bfLine (mapLine c) = none) →
    readBf (some l.length) (l.map mapLine ++ t) = none := by
  intro l
  induction l with
  | nil => rintro t ⟨c, h, _⟩; simp at h
  | cons c l ih =>
    rintro t ⟨d, hd, h⟩
    simp only [List.length_cons, List.map_cons, List.cons_append, readBf]
    rcases List.mem_cons.1 hd with rfl | hd
    · simp [h]
    · simp [ih t ⟨d, hd, h⟩]

theorem beginBf_count (n : Nat) : beginBf (natStr n ++ c!" beginbfchar") = some n := by
  have h : ' ' ∉ natStr n := fun h => absurd (natStr_nospace h) (by decide)
  have e : natStr n ++ c!" beginbfchar" = natStr n ++ ' ' :: c!"beginbfchar" := rfl
  have hi : parseInt (natStr n) = .ok (n : Int) := parseInt_intStr n
  rw [beginBf, e, splitOn_append h, splitOn_free (by decide)]
  simp [hi, Except.toOption]

theorem readCMap_toUnicode (cmap : List (Nat × Nat)) : readCMap (toUnicode cmap) =
    if cmap.length ≤ 100 then readBf (some cmap.length) (cmap.map mapLine ++ textLines cmapTail) else none := by
  have h : readCMap (toUnicode cmap) = readBf none (textLines (toUnicode cmap)) := rfl
  rw [h, textLines_toUnicode, readBf_skip (by decide +kernel), readBf, beginBf_count]

theorem toUnicode_ascii (cmap : List (Nat × Nat)) : ∀ c ∈ toUnicode cmap, c.toNat < 256 := by
  have hh : ∀ c ∈ cmapHead, c.toNat < 256 := by decide +kernel
  have ht : ∀ c ∈ cmapTail, c.toNat < 256 := by decide +kernel
  have h8 : ∀ c ∈ c!"        ", c.toNat < 256 := by decide +kernel
  have hb : ∀ c ∈ c!" beginbfchar", c.toNat < 256 := by decide +kernel
  have hn : ('\n').toNat < 256 := by decide
  have hl : ∀ c ∈ List.intercalate ['\n'] (cmap.map mapLine), c.toNat < 256 := by
    intro c hc
    simp only [List.intercalate, List.mem_flatten] at hc
    obtain ⟨s, hs, hc⟩ := hc
    have : s = ['\n'] ∨ s ∈ cmap.map mapLine := by
      clear hc
      generalize cmap.map mapLine = l at hs
      induction l with
      | nil => simp at hs
      | cons a l ih =>
        cases l with
        | nil =>
          simp only [List.intersperse_singleton, List.mem_singleton] at hs
          exact .inr (by simp [hs])
        | cons b l =>
          simp only [List.intersperse_cons_cons, List.mem_cons] at hs
          rcases hs with rfl | rfl | hs
          · exact .inr List.mem_cons_self
          · exact .inl rfl
          · rcases ih (by simpa using hs) with h | h
            · exact .inl h
            · exact .inr (List.mem_cons_of_mem _ h)
    rcases this with rfl | hs
    · rw [List.mem_singleton.1 hc]; decide
    · obtain ⟨e, _, rfl⟩ := List.mem_map.1 hs
      have := (mapLine_char e c hc).1
      omega
  intro c hc
  rw [toUnicode_eq] at hc
  simp only [List.mem_append, List.mem_cons] at hc
  rcases hc with hc | rfl | ((hc | hc) | hc) | rfl | (hc | hc) | rfl | hc
  · exact hh c hc
  · exact hn
  · exact h8 c (by simpa using hc)
  · have := isDigit_range (natStr_digit hc)
    omega
  · exact hb c (by simpa using hc)
  · exact hn
  · exact h8 c (by simpa using hc)
  · exact hl c hc
  · exact hn
  · exact ht c hc

/-- a character that one UTF-16 unit can hold -/
def BmpChar (c : Nat) : Prop := c < 0x10000 ∧ ¬ (0xD800 ≤ c ∧ c < 0xE000)

/-- C61, partial: the character map of an embedded font gives every glyph the characters it has in the font file, in their order, and says
nothing else, for fonts of at most 100 characters, all of them in the basic plane. Missing: other fonts, whose maps cannot be read
(`C61_many_false`, `C61_astral_false`). -/
theorem C61_characters_partial (num : Rat → Obj) (b : Base) (hb : b.Wf) (f : TTFile) (hl : f.cmap.length ≤ 100)
    (hc : ∀ c ∈ f.cmap, BmpChar c.1 ∧ c.2 < 0x10000) :
    ∃ s, fontCMap (addTTFont num b f).2 (addTTFont num b f).1 = some s ∧
      readCMap (unLatin s) = some (f.cmap.map fun c => (c.2, c.1)) := by
  refine ⟨_, (addTTFont_entries num b hb f).2, ?_⟩
  rw [unLatin_latin1 (toUnicode_ascii _), readCMap_toUnicode, if_pos hl,
    readBf_entries _ _ fun c h => bfLine_ok (hc c h).2 (hc c h).1.1 (hc c h).1.2]
  have : readBf (some 0) (textLines cmapTail) = some [] := by decide +kernel
  simp [this]

/-- C61 is violated by every font with more than 100 characters: its map has a block with more entries than a block may have. -/
theorem C61_many_false (num : Rat → Obj) (b : Base) (hb : b.Wf) (f : TTFile) (hl : 100 < f.cmap.length) :
    ∃ s, fontCMap (addTTFont num b f).2 (addTTFont num b f).1 = some s ∧ readCMap (unLatin s) = none := by
  refine ⟨_, (addTTFont_entries num b hb f).2, ?_⟩
  rw [unLatin_latin1 (toUnicode_ascii _), readCMap_toUnicode, if_neg (by omega)]

/-- C61 is violated by every font with a character outside the basic plane: its number is written instead of its UTF-16 units. -/
theorem C61_astral_false (num : Rat → Obj) (b : Base) (hb : b.Wf) (f : TTFile) (hc : ∃ c ∈ f.cmap, 0x10000 ≤ c.1 ∧ c.1 ≤ 0x10FFFF) :
    ∃ s, fontCMap (addTTFont num b f).2 (addTTFont num b f).1 = some s ∧ readCMap (unLatin s) = none := by
  refine ⟨_, (addTTFont_entries num b hb f).2, ?_⟩
  rw [unLatin_latin1 (toUnicode_ascii _), readCMap_toUnicode]
  split
  · obtain ⟨c, h, h1, h2⟩ := hc
    exact readBf_bad _ _ ⟨c, h, bfLine_astral h1 h2⟩
  · rfl

/-- the lines of a map, and a face with tears of joy -/
example : mapLine (0xE9, 0x1A) = c!"<001A> <00E9>" ∧ readCMap (toUnicode [(0x41, 3), (0xE9, 0x1A), (0x20AC, 0x1A)]) = some [(3, 0x41), (0x1A, 0xE9), (0x1A, 0x20AC)] ∧
    mapLine (0x1F602, 3) = c!"<0003> <1F602>" ∧ charOf c!"<D83DDE02>" = some 0x1F602 ∧ charOf c!"<1F602>" = none := by decide +kernel

end Verif
