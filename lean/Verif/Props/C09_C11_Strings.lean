import Verif.Lemmas.TextOps
/-! C09, C10, C11: the strings written in a text stream. -/
namespace Verif
open Spec

theorem encodeLatin_inv {s : Str} {b : Bytes} (h : encodeLatin s = .ok b) : (∀ c ∈ s, isLatin c = true) ∧ b = bytesOf s := by
  unfold encodeLatin at h
  split at h
  · rename_i hl
    cases h
    exact ⟨by simpa using hl, rfl⟩
  · cases h

theorem encodeLatin_of {s : Str} (h : ∀ c ∈ s, isLatin c = true) : encodeLatin s = .ok (bytesOf s) := by
  unfold encodeLatin
  rw [if_pos (by simpa using h)]
  rfl

/-- C09: whatever is written for a part in a standard font, when the stream can be encoded: the last operator
shows exactly the text of the part, if that has no carriage return. (Text outside of latin-1 makes the encoding
fail.) -/
theorem C09_text_shown_partial (F : TFmt) (hF : F.Ok) (E : Encs) (hE : E.Ok) (refOf : Str → Str → Str) (M : Metrics) (p : TPart)
    (hs : p.look.st.Ok refOf) (henc : p.look.enc = none) (hne : p.words.flatten ≠ []) (hcr : '\r' ∉ p.words.flatten)
    (factor : Rat) (last last' : TLast) (s : Str) (h : outputText F M E p (cleanWords p.words) factor last = .ok (last', s))
    (b : Bytes) (hb : encodeLatin s = .ok b) :
    ∃ ops text, encodeLatin p.words.flatten = .ok text ∧ opsOf b = some (ops ++ [⟨[.str text], b!"Tj"⟩]) := by
  obtain ⟨hl, rfl⟩ := encodeLatin_inv hb
  obtain ⟨ops, sh, t, h1, h2, h3, h4, _⟩ := outputText_ops hF hE hs h hl
  obtain ⟨h5, h6, rfl⟩ := h4 hne
  have hlat := h6 henc
  unfold PartShows at h5
  rw [henc] at h5
  simp only [] at h5
  subst h5
  rw [eol_id (notMem_bytesOf hlat (c := '\r') (by decide) hcr)] at h1
  exact ⟨ops, _, encodeLatin_of hlat, h1.ops⟩

/-- C09 without the restriction: a reader sees the text with its ends of lines replaced by line feeds. -/
theorem C09_text_shown_eol (F : TFmt) (hF : F.Ok) (E : Encs) (hE : E.Ok) (refOf : Str → Str → Str) (M : Metrics) (p : TPart)
    (hs : p.look.st.Ok refOf) (henc : p.look.enc = none) (hne : p.words.flatten ≠ [])
    (factor : Rat) (last last' : TLast) (s : Str) (h : outputText F M E p (cleanWords p.words) factor last = .ok (last', s))
    (b : Bytes) (hb : encodeLatin s = .ok b) :
    ∃ ops text, encodeLatin p.words.flatten = .ok text ∧ opsOf b = some (ops ++ [⟨[.str (eol text)], b!"Tj"⟩]) := by
  obtain ⟨hl, rfl⟩ := encodeLatin_inv hb
  obtain ⟨ops, sh, t, h1, h2, h3, h4, _⟩ := outputText_ops hF hE hs h hl
  obtain ⟨h5, h6, rfl⟩ := h4 hne
  have hlat := h6 henc
  unfold PartShows at h5
  rw [henc] at h5
  simp only [] at h5
  subst h5
  exact ⟨ops, _, encodeLatin_of hlat, h1.ops⟩

/-- a way of writing numbers, for examples -/
def sampleTFmt : TFmt := { sampleFmt with raw := fun q => intStr q.floor, rnd := fun q => q.floor }

theorem numText_intStr (n : Int) : NumText (intStr n) := by
  have h : ∀ n : Nat, NumText (natStr n) := by
    intro n
    refine ⟨natStr_ne_nil n, ?_⟩
    intro c hc
    have h1 : c.isDigit = true := by
      have := Nat.isDigit_of_mem_toDigits (b := 10) (by decide) (by decide) hc
      simpa using this
    simp only [Char.isDigit, Bool.and_eq_true, decide_eq_true_eq] at h1
    have h2 : 48 ≤ c.toNat ∧ c.toNat ≤ 57 := ⟨h1.1, h1.2⟩
    have hl : isLatin c = true := by simp only [isLatin, decide_eq_true_eq]; omega
    refine ⟨hl, ?_⟩
    have e : (latin1 c).toNat = c.toNat := latin1_toNat (by omega)
    simp only [isNumByte, Bool.or_eq_true, Bool.and_eq_true, decide_eq_true_eq]
    right
    rw [UInt8.le_iff_toNat_le, UInt8.le_iff_toNat_le, e]
    exact h2
  cases n with
  | ofNat n => exact h n
  | negSucc n =>
    have := h (n + 1)
    refine ⟨by simp [intStr], ?_⟩
    intro c hc
    simp only [intStr, List.mem_cons] at hc
    rcases hc with rfl | hc
    · decide
    · exact this.2 c hc

theorem sampleTFmt_ok : sampleTFmt.Ok := by
  refine ⟨⟨fun x => numText_intStr _, fun x => numText_intStr _⟩, ?_⟩
  intro x y h
  simp only [sampleTFmt, sampleFmt] at h ⊢
  have : x.floor = y.floor := by exact_mod_cast h
  rw [this]

/-- fonts, colours and parts for examples -/
def sampleSt : PState := ⟨c!"Helvetica", c!"n", c!"F1", 10, ⟨some [1], false⟩, 0⟩
def samplePart (ws : List Str) (enc : Option Str) : TPart := ⟨⟨sampleSt, false, ⟨none, false⟩, enc⟩, none, 0, ws, 0⟩
def sampleM : Metrics := fun _ _ _ => 1
def sampleRef : Str → Str → Str := fun _ _ => c!"F1"

theorem sampleSt_ok : sampleSt.Ok sampleRef :=
  ⟨⟨[1], rfl, Or.inl rfl⟩, rfl, rfl, by unfold NameOk; decide⟩

/-- **C09 is false for carriage returns**: `a`, carriage return, `b` is shown as `a`, line feed, `b`. -/
theorem C09_carriage_return_false :
    ∃ last s, outputText sampleTFmt sampleM (fun _ _ => none) (samplePart [c!"a\rb"] none) (cleanWords [c!"a\rb"]) 1 ⟨none, none⟩ =
      .ok (last, s) ∧ opsOf (bytesOf s) = some [⟨[.name b!"F1", .num b!"10"], b!"Tf"⟩, ⟨[.num b!"1"], b!"g"⟩, ⟨[.num b!"0"], b!"Ts"⟩,
        ⟨[.num b!"0"], b!"Tw"⟩, ⟨[.str b!"a\nb"], b!"Tj"⟩] := by
  exact ⟨_, _, (by decide +kernel : _ = Except.ok ((⟨some sampleSt, some 0⟩ : TLast), c!" /F1 10 Tf 1 g 0 Ts 0 Tw (a\rb)Tj")), by decide +kernel⟩

example : cleanWords [c!"a(b", c!" ", c!"\\)"] = c!"a\\(b \\\\\\)" ∧
    opsOf (bytesOf (c!" (" ++ cleanWords [c!"a(b", c!" ", c!"\\)"] ++ c!")Tj")) = some [⟨[.str b!"a(b \\)"], b!"Tj"⟩] := by
  decide +kernel

/-! ### the text of a list -/

/-- C10: the text of a list in a standard font is shown as it is, and the operators after it are read, if its
parentheses are balanced and it has no backslashes and carriage returns. -/
theorem C10_list_text_partial (F : TFmt) (hF : F.Ok) (E : Encs) (refOf : Str → Str → Str) (cfg : TCfg) (lc : ListCfg)
    (hs : lc.state.Ok refOf) (hraw : ∀ x, NumText (F.raw x)) (width : Rat) (l : TLine) (o : OutSt)
    (s : Str) (h : bulletText F E cfg none width l lc o = .ok s) (b : Bytes) (hb : encodeLatin s = .ok b)
    (h1 : '\\' ∉ lc.text) (h2 : '\r' ∉ lc.text) (h3 : balanced 0 (bytesOf lc.text) = true) :
    ∃ ops text mv, encodeLatin lc.text = .ok text ∧ mv.op = b!"Td" ∧
      opsOf b = some (ops ++ [⟨[.str text], b!"Tj"⟩, mv]) := by
  obtain ⟨hl, rfl⟩ := encodeLatin_inv hb
  unfold bulletText at h
  split at h
  · cases h
  · obtain ⟨t1, ops1, c1, c2, c3, c4⟩ := compare_ops hF hs o.last.state
    rw [c1] at h
    simp only [listOperand] at h
    injection h with h
    have hlat : ∀ c ∈ lc.text, isLatin c = true := by
      intro c hc
      apply hl
      rw [← h]
      simp only [List.mem_append]
      exact Or.inl (Or.inl (Or.inl (Or.inr hc)))
    have hz : NumText c!"0" := by unfold NumText; decide
    have e : s = (c!" " ++ c!"0" ++ c!" " ++ ('-' :: F.fmt (o.geo.dy cfg l)) ++ c!" Td") ++ (t1 ++ ((c!" (" ++ lc.text ++ c!")Tj") ++
        (c!" " ++ F.raw (o.geo.dx cfg width l) ++ c!" " ++ c!"0" ++ c!" Td"))) := by
      rw [← h]; simp
    have o1 := opsTo_Td hz (numText_neg (hF.1.1 (o.geo.dy cfg l)))
    have o2 := opsTo_show_raw h3 (notMem_bytesOf hlat (c := '\\') (by decide) h1) (notMem_bytesOf hlat (c := '\r') (by decide) h2)
    have o3 := opsTo_Td (hraw (o.geo.dx cfg width l)) hz
    have := (o1.append (c2.append (o2.append o3 (sep_space _)) (sep_space _)) (sep_append c3 (sep_space _))).ops
    rw [← e] at this
    refine ⟨⟨[.num (bytesOf c!"0"), .num (bytesOf ('-' :: F.fmt (o.geo.dy cfg l)))], b!"Td"⟩ :: ops1, bytesOf lc.text,
      ⟨[.num (bytesOf (F.raw (o.geo.dx cfg width l))), .num (bytesOf c!"0")], b!"Td"⟩,
      encodeLatin_of hlat, rfl, this.trans ?_⟩
    simp

/-- a list paragraph for examples -/
def sampleList (t : Str) : TCfg := ⟨[.text (splitWords c!"one two") (samplePart [] none).look none], 0, c!"l", 1, some ⟨t, 15, sampleSt⟩⟩

/-- **C10 is false for `1)`**: the string ends at the parenthesis of the text, the parenthesis that should close
it is an error, and the stream of the paragraph cannot be read. -/
theorem C10_closing_paren_false :
    ∃ o, textOut sampleTFmt sampleM (fun _ _ => none) (sampleList c!"1)") none 200 100 TPos.init true = .ok o ∧
      lex (bytesOf c!" (1))Tj") = [.str b!"1", .bad, .word b!"Tj"] ∧ opsOf (bytesOf o.text) = none := by
  refine ⟨_, (by decide +kernel : _ = Except.ok (OutSt.mk ⟨true, 0, false, true⟩ ⟨some sampleSt, some 0⟩ ⟨none, none, none⟩ (-11)
    c!" 0 -11 Td /F1 10 Tf 1 g 0 Ts (1))Tj 15 0 Td /F1 10 Tf 1 g 0 Ts 0 Tw (one )Tj (two)Tj" [] [])), by decide +kernel, by decide +kernel⟩

/-- **C10 is false for `(a`**: the string does not end before the end of the stream, and nothing is shown. -/
theorem C10_opening_paren_false :
    ∃ o, textOut sampleTFmt sampleM (fun _ _ => none) (sampleList c!"(a") none 200 100 TPos.init true = .ok o ∧
      Tok.bad ∈ lex (bytesOf o.text) ∧ opsOf (bytesOf o.text) = none := by
  refine ⟨_, (by decide +kernel : _ = Except.ok (OutSt.mk ⟨true, 0, false, true⟩ ⟨some sampleSt, some 0⟩ ⟨none, none, none⟩ (-11)
    c!" 0 -11 Td /F1 10 Tf 1 g 0 Ts ((a)Tj 15 0 Td /F1 10 Tf 1 g 0 Ts 0 Tw (one )Tj (two)Tj" [] [])), by decide +kernel, by decide +kernel⟩

/-- **C10 is false for a backslash**: `a\b` is shown as `a`, backspace. -/
theorem C10_backslash_false :
    ∃ o, textOut sampleTFmt sampleM (fun _ _ => none) (sampleList c!"a\\b") none 200 100 TPos.init true = .ok o ∧
      (opsOf (bytesOf o.text)).bind (fun l => l[4]?) = some ⟨[.str [97, 8]], b!"Tj"⟩ := by
  refine ⟨_, (by decide +kernel : _ = Except.ok (OutSt.mk ⟨true, 0, false, true⟩ ⟨some sampleSt, some 0⟩ ⟨none, none, none⟩ (-11)
    c!" 0 -11 Td /F1 10 Tf 1 g 0 Ts (a\\b)Tj 15 0 Td /F1 10 Tf 1 g 0 Ts 0 Tw (one )Tj (two)Tj" [] [])), by decide +kernel⟩

example : balanced 0 (bytesOf c!"(1)") = true ∧ '\\' ∉ c!"(1)" ∧ '\r' ∉ c!"(1)" := by decide

/-! ### TrueType fonts -/

theorem mapM_mem {α β : Type} {f : α → Option β} : ∀ {l : List α} {r : List β}, l.mapM f = some r → ∀ b ∈ r, ∃ a ∈ l, f a = some b := by
  intro l
  induction l with
  | nil => intro r h b hb; simp at h; subst h; simp at hb
  | cons a l ih =>
    intro r h b hb
    simp only [List.mapM_cons, Option.bind_eq_bind, Option.bind_eq_some_iff, Option.pure_def, Option.some.injEq] at h
    obtain ⟨x, hx, y, hy, rfl⟩ := h
    rcases List.mem_cons.1 hb with rfl | hb
    · exact ⟨a, by simp, hx⟩
    · obtain ⟨c, hc, he⟩ := ih hy b hb
      exact ⟨c, by simp [hc], he⟩

/-- C11: the string shown for a part in a TrueType font consists of the glyph numbers of the characters of its
text, two bytes each, if the text has no parentheses and backslashes and no glyph number has a byte 13. -/
theorem C11_glyphs_partial (F : TFmt) (hF : F.Ok) (E : Encs) (hE : E.Ok) (refOf : Str → Str → Str) (M : Metrics) (p : TPart)
    (hs : p.look.st.Ok refOf) (mode : Str) (henc : p.look.enc = some mode) (map : Char → Option Nat)
    (hmap : E p.look.st.family mode = some map) (hne : p.words.flatten ≠ [])
    (htext : ∀ c ∈ p.words.flatten, c ≠ '\\' ∧ c ≠ '(' ∧ c ≠ ')')
    (hgid : ∀ c ∈ p.words.flatten, ∀ g, map c = some g → g / 256 ≠ 13 ∧ g % 256 ≠ 13)
    (factor : Rat) (last last' : TLast) (s : Str) (h : outputText F M E p (cleanWords p.words) factor last = .ok (last', s))
    (b : Bytes) (hb : encodeLatin s = .ok b) :
    ∃ ops text gids, opsOf b = some (ops ++ [⟨[.str text], b!"Tj"⟩]) ∧
      p.words.flatten.mapM map = some gids ∧ codes2 text = some gids := by
  obtain ⟨hl, rfl⟩ := encodeLatin_inv hb
  obtain ⟨ops, sh, t, h1, h2, h3, h4, _⟩ := outputText_ops hF hE hs h hl
  obtain ⟨h5, h6, rfl⟩ := h4 hne
  unfold PartShows at h5
  rw [henc] at h5
  obtain ⟨map', gs, g1, g2, rfl⟩ := h5
  rw [hmap] at g1
  cases g1
  have hclean : cleanWords p.words = p.words.flatten := by
    unfold cleanWords
    rw [escapeString_eq]
    generalize p.words.flatten = t at htext
    induction t with
    | nil => rfl
    | cons c t ih =>
      obtain ⟨a1, a2, a3⟩ := htext c (by simp)
      rw [List.flatMap_cons, ih fun c hc => htext c (by simp [hc])]
      simp [escChar, a1, a2, a3]
  rw [hclean] at g2
  have h16 : ∀ g ∈ gs, g < 65536 := by
    intro g hg
    obtain ⟨c, _, hc⟩ := mapM_mem g2 g hg
    exact hE _ _ map c g hmap hc
  have h13 : (13 : UInt8) ∉ gs.flatMap asPair := by
    intro hm
    obtain ⟨g, hg, hm⟩ := List.mem_flatMap.1 hm
    obtain ⟨c, hc, hcg⟩ := mapM_mem g2 g hg
    obtain ⟨n1, n2⟩ := hgid c hc g hcg
    have := h16 g hg
    simp only [asPair, List.mem_cons, List.not_mem_nil, or_false] at hm
    rcases hm with e | e
    · have := congrArg UInt8.toNat e
      simp only [UInt8.toNat_ofNat'] at this
      have e13 : (13 : UInt8).toNat = 13 := rfl
      omega
    · have := congrArg UInt8.toNat e
      simp only [UInt8.toNat_ofNat'] at this
      have e13 : (13 : UInt8).toNat = 13 := rfl
      omega
  rw [eol_id h13] at h1
  exact ⟨ops, _, gs, h1.ops, g2, codes2_pairs gs h16⟩

/-- C11: a character that is not in the map of the font is never dropped silently. -/
theorem C11_missing_rejected (F : TFmt) (M : Metrics) (E : Encs) (p : TPart) (mode : Str) (henc : p.look.enc = some mode)
    (map : Char → Option Nat) (hmap : E p.look.st.family mode = some map) (c : Char) (hc : c ∈ p.words.flatten)
    (hm : map c = none) (factor : Rat) (last : TLast) :
    ∃ e, outputText F M E p (cleanWords p.words) factor last = .error e := by
  have hmem := mem_cleanWords hc
  have hbad : ∀ t : Str, c ∈ t → ∃ e, encodeText map t = .error e := by
    intro t
    induction t with
    | nil => intro h; simp at h
    | cons d t ih =>
      intro h
      unfold encodeText
      cases hd : map d with
      | none => exact ⟨_, rfl⟩
      | some g =>
        simp only []
        cases asHex g with
        | error e => exact ⟨_, rfl⟩
        | ok a =>
          simp only []
          have : c ∈ t := by
            rcases List.mem_cons.1 h with rfl | h
            · rw [hm] at hd; cases hd
            · exact h
          obtain ⟨e, he⟩ := ih this
          rw [he]
          exact ⟨_, rfl⟩
  obtain ⟨e, he⟩ := hbad _ hmem
  unfold outputText
  cases p.look.st.compare F last.state with
  | error e => exact ⟨_, rfl⟩
  | ok s =>
    have hne : cleanWords p.words ≠ [] := by intro h; rw [h] at hmem; simp at hmem
    refine ⟨e, ?_⟩
    simp only [if_neg hne, henc, encodeWith, hmap, he]

/-- a font with the glyphs 5 for `(`, 9 for a backslash, 13 for `a` and 3338 for `b` -/
def sampleEncs : Encs := fun _ _ => some fun c =>
  if c = '(' then some 5 else if c = '\\' then some 9 else if c = 'a' then some 13 else if c = 'b' then some 3338
  else if c = 'c' then some 296 else none

theorem sampleEncs_ok : sampleEncs.Ok := by
  intro f m map c g h hg
  cases h
  simp only [] at hg
  repeat' split at hg
  all_goals first | (cases hg; decide) | cases hg

/-- **C11 is false for parentheses**: text is escaped before it is encoded, so that `(` is shown as the glyphs of
a backslash and a parenthesis. -/
theorem C11_paren_false :
    ∃ last s, outputText sampleTFmt sampleM sampleEncs (samplePart [c!"("] (some c!"n")) (cleanWords [c!"("]) 1 ⟨none, none⟩ =
      .ok (last, s) ∧ ∃ text, (opsOf (bytesOf s)).bind (fun l => l[4]?) = some ⟨[.str text], b!"Tj"⟩ ∧ codes2 text = some [9, 5] := by
  refine ⟨_, _, (by decide +kernel : _ = Except.ok ((⟨some sampleSt, some 0⟩ : TLast), c!" /F1 10 Tf 1 g 0 Ts 0 Tw (\x00\x09\x00\x05)Tj")), [0, 9, 0, 5], by decide +kernel, by decide +kernel⟩

/-- **C11 is false for glyph numbers with a byte 13**: glyph 13 is shown as glyph 10; glyph 3338 (bytes 13 and 10)
loses a byte. -/
theorem C11_glyph13_false :
    (∃ last s, outputText sampleTFmt sampleM sampleEncs (samplePart [c!"a"] (some c!"n")) (cleanWords [c!"a"]) 1 ⟨none, none⟩ =
      .ok (last, s) ∧ ∃ text, (opsOf (bytesOf s)).bind (fun l => l[4]?) = some ⟨[.str text], b!"Tj"⟩ ∧ codes2 text = some [10]) ∧
    (∃ last s, outputText sampleTFmt sampleM sampleEncs (samplePart [c!"b"] (some c!"n")) (cleanWords [c!"b"]) 1 ⟨none, none⟩ =
      .ok (last, s) ∧ ∃ text, (opsOf (bytesOf s)).bind (fun l => l[4]?) = some ⟨[.str text], b!"Tj"⟩ ∧ codes2 text = none) := by
  refine ⟨⟨_, _, (by decide +kernel : _ = Except.ok ((⟨some sampleSt, some 0⟩ : TLast), c!" /F1 10 Tf 1 g 0 Ts 0 Tw (\x00\x0d)Tj")), [0, 10], by decide +kernel, by decide +kernel⟩,
    ⟨_, _, (by decide +kernel : _ = Except.ok ((⟨some sampleSt, some 0⟩ : TLast), c!" /F1 10 Tf 1 g 0 Ts 0 Tw (\x0d\x0a)Tj")), [10], by decide +kernel, by decide +kernel⟩⟩

/-- the bytes of glyph 296 are 1 and 40, a parenthesis -/
example : ∃ last s, outputText sampleTFmt sampleM sampleEncs (samplePart [c!"cc"] (some c!"n")) (cleanWords [c!"cc"]) 1 ⟨none, none⟩ =
    .ok (last, s) ∧ ∃ text, (opsOf (bytesOf s)).bind (fun l => l[4]?) = some ⟨[.str text], b!"Tj"⟩ ∧ codes2 text = some [296, 296] :=
  ⟨_, _, (by decide +kernel : _ = Except.ok ((⟨some sampleSt, some 0⟩ : TLast), c!" /F1 10 Tf 1 g 0 Ts 0 Tw (\x01\\(\x01\\()Tj")), [1, 40, 1, 40], by decide +kernel, by decide +kernel⟩

end Verif
