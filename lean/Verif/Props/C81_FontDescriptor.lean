import Verif.Model.FontDescriptor
import Verif.Spec.FontTables
import Verif.Spec.PdfObj
import Verif.Props.C07_C08_Serialize
import Mathlib.Tactic.FieldSimp
import Mathlib.Tactic.NormNum
import Mathlib.Tactic.IntervalCases
import Mathlib.Tactic.Positivity
/-! C81: what a document says about an embedded font is what the font file says. -/
namespace Verif
open Spec

theorem describe_cases {t : FontTables} {d : FontDesc} (h : t.describe = .ok d) :
    ∃ name os2, t.names[6]? = some name ∧ t.os2 = some os2 ∧ t.head.unitsPerEm ≠ 0 ∧ licenceRefused os2.fsType = false := by
  unfold FontTables.describe at h
  cases hn : t.names[6]? with
  | none => rw [hn] at h; cases h
  | some name =>
    rw [hn] at h
    simp only at h
    split at h
    · cases h
    · rename_i hu
      cases ho : t.os2 with
      | none => rw [ho] at h; cases h
      | some os2 =>
        rw [ho] at h
        simp only at h
        split at h
        · cases h
        · rename_i hl
          exact ⟨name, os2, rfl, rfl, hu, by simpa using hl⟩

theorem and300 (n : Nat) : (n &&& 0x0300) = 0 ↔ n.testBit 8 = false ∧ n.testBit 9 = false := by
  constructor
  · intro h
    constructor
    · have := congrArg (·.testBit 8) h
      simpa [Nat.testBit_and, show Nat.testBit 0x0300 8 = true from rfl] using this
    · have := congrArg (·.testBit 9) h
      simpa [Nat.testBit_and, show Nat.testBit 0x0300 9 = true from rfl] using this
  · rintro ⟨h8, h9⟩
    apply Nat.eq_of_testBit_eq
    intro i
    rw [Nat.testBit_and, Nat.zero_testBit]
    by_cases h : i < 10
    · interval_cases i <;> first | (simp only [h8, Bool.false_and]) | (simp only [h9, Bool.false_and]) | (rw [show Nat.testBit 0x0300 _ = false from rfl, Bool.and_false])
    · rw [Nat.testBit_lt_two_pow (x := 0x0300) (lt_of_lt_of_le (by norm_num : 0x0300 < 2 ^ 10) (Nat.pow_le_pow_right (by norm_num) (by omega))), Bool.and_false]

/-- **C81.** A font whose licence does not let its file be embedded is refused, and so is one that must not be subset; no other font is, if it
has the tables that are read. -/
theorem C81_licence {t : FontTables} {os2 : OS2Table} (ho : t.os2 = some os2) (hn : 6 < t.names.length) (hu : t.head.unitsPerEm ≠ 0) (hf : LicenceOk os2.fsType) :
    ((∃ d, t.describe = .ok d) ↔ ¬ NotEmbeddable os2.fsType ∧ os2.fsType.testBit 8 = false) ∧ (∀ e, t.describe = .error e → e = .exception) := by
  have key : licenceRefused os2.fsType = false ↔ ¬ NotEmbeddable os2.fsType ∧ os2.fsType.testBit 8 = false := by
    unfold licenceRefused NotEmbeddable
    rw [Bool.or_eq_false_iff, bne_eq_false_iff_eq, and300, beq_eq_false_iff_ne]
    have h2 : os2.fsType = 2 ↔ os2.fsType.testBit 1 = true ∧ os2.fsType.testBit 2 = false ∧ os2.fsType.testBit 3 = false ∧ os2.fsType.testBit 8 = false ∧
        os2.fsType.testBit 9 = false := by
      constructor
      · intro h; rw [h]; decide
      · rintro ⟨b1, b2, b3, b8, b9⟩
        apply Nat.eq_of_testBit_eq
        intro i
        by_cases hi : i ∈ licenceBits
        · simp only [licenceBits, List.mem_cons, List.not_mem_nil, or_false] at hi
          rcases hi with rfl | rfl | rfl | rfl | rfl
          · rw [b1]; rfl
          · rw [b2]; rfl
          · rw [b3]; rfl
          · rw [b8]; rfl
          · rw [b9]; rfl
        · rw [hf i hi]
          by_cases h0 : i = 0
          · subst h0; rfl
          · have : i ≠ 1 := fun e => hi (by rw [e]; decide)
            rw [Nat.testBit_lt_two_pow]
            exact lt_of_lt_of_le (by norm_num : 2 < 2 ^ 2) (Nat.pow_le_pow_right (by norm_num) (by omega))
    rw [Ne, h2]
    cases os2.fsType.testBit 1 <;> cases os2.fsType.testBit 2 <;> cases os2.fsType.testBit 3 <;> cases os2.fsType.testBit 8 <;> cases os2.fsType.testBit 9 <;> decide
  constructor
  · rw [← key]
    constructor
    · rintro ⟨d, hd⟩
      obtain ⟨name, o, -, h2, -, h4⟩ := describe_cases hd
      rw [ho] at h2
      cases h2
      exact h4
    · intro hl
      unfold FontTables.describe
      rw [List.getElem?_eq_getElem hn]
      simp [hu, ho, hl]
  · intro e he
    unfold FontTables.describe at he
    rw [List.getElem?_eq_getElem hn] at he
    simp only [hu, if_false, ho] at he
    split at he
    · cases he; rfl
    · cases he

/-- **C81.** The flags say whether all glyphs have the same width, whether the font is slanted, and whether it is bold (ISO 32000-1, table 123: bits 1, 7
and 19), and always that it is symbolic (bit 3). -/
theorem C81_flags {t : FontTables} {d : FontDesc} (h : t.describe = .ok d) :
    ∃ os2, t.os2 = some os2 ∧ (d.flags.testBit 0 = true ↔ t.isFixedPitch = true) ∧ d.flags.testBit 2 = true ∧ (d.flags.testBit 6 = true ↔ t.italicAngle ≠ 0) ∧
      (d.flags.testBit 18 = true ↔ 600 ≤ os2.usWeightClass) ∧ ∀ i, i ∉ [0, 2, 6, 18] → d.flags.testBit i = false := by
  obtain ⟨name, os2, h1, h2, h3, h4⟩ := describe_cases h
  have e : d.flags = fontFlags t.italicAngle os2.usWeightClass t.isFixedPitch := by
    unfold FontTables.describe at h
    rw [h1] at h
    simp only [h3, if_false, h2, h4] at h
    cases h
    rfl
  refine ⟨os2, h2, ?_⟩
  rw [e]
  have hi : ∀ n, n < 2 ^ 19 → (∀ i < 19, i ∉ [0, 2, 6, 18] → n.testBit i = false) → ∀ i, i ∉ [0, 2, 6, 18] → n.testBit i = false := by
    intro n hn hb i hi
    by_cases hlt : i < 19
    · exact hb i hlt hi
    · exact Nat.testBit_lt_two_pow (lt_of_lt_of_le hn (Nat.pow_le_pow_right (by norm_num) (by omega)))
  unfold fontFlags
  by_cases c1 : t.italicAngle ≠ 0 <;> by_cases c2 : os2.usWeightClass ≥ 600 <;> cases c3 : t.isFixedPitch <;> simp only [c1, c2, if_true, if_false, Bool.false_eq_true, iff_true, iff_false, ne_eq, not_false_eq_true] <;>
    exact ⟨by decide, by decide, by decide, by decide, hi _ (by decide) (by decide)⟩

/-- **C81.** Sizes are given in thousandths: the box of the font; ascent and descent, from `hhea` or else from `OS/2`; the height of capitals, from `OS/2`
if its version has it, else the ascent. The slant is that of the font. -/
theorem C81_metrics {t : FontTables} {d : FontDesc} (h : t.describe = .ok d) :
    ∃ os2, t.os2 = some os2 ∧
      List.Forall₂ (Thousandths t.head.unitsPerEm) [t.head.xMin, t.head.yMin, t.head.xMax, t.head.yMax] d.bbox ∧
      Thousandths t.head.unitsPerEm ((t.hhea.map HheaTable.ascent).getD os2.sTypoAscender) d.ascent ∧
      Thousandths t.head.unitsPerEm ((t.hhea.map HheaTable.descent).getD os2.sTypoDescender) d.descent ∧
      (1 < os2.version → Thousandths t.head.unitsPerEm os2.sCapHeight d.capHeight) ∧ (os2.version ≤ 1 → d.capHeight = d.ascent) ∧
      d.italicAngle = t.italicAngle ∧ 50 ≤ d.stemV := by
  obtain ⟨name, os2, h1, h2, h3, h4⟩ := describe_cases h
  unfold FontTables.describe at h
  rw [h1] at h
  simp only [h3, if_false, h2, h4, Bool.false_eq_true, Except.ok.injEq] at h
  subst h
  have hu : (t.head.unitsPerEm : Rat) ≠ 0 := by exact_mod_cast h3
  have key : ∀ v : Int, Thousandths t.head.unitsPerEm v (v * (1000 / t.head.unitsPerEm)) := by
    intro v
    unfold Thousandths
    field_simp
  refine ⟨os2, h2, .cons (key _) (.cons (key _) (.cons (key _) (.cons (key _) .nil))), ?_, ?_, ?_, ?_, rfl, ?_⟩
  · cases t.hhea <;> exact key _
  · cases t.hhea <;> exact key _
  · intro hv
    simp only [gt_iff_lt, hv, if_true]
    exact key _
  · intro hv
    simp only [gt_iff_lt, not_lt.2 hv, if_false]
  · show (50 : Int) ≤ 50 + ⌊((os2.usWeightClass : Rat) / 65) ^ 2⌋
    have : (0 : Int) ≤ ⌊((os2.usWeightClass : Rat) / 65) ^ 2⌋ := Int.floor_nonneg.2 (by positivity)
    omega

/-- **C81 (partial).** The name of the font is its PostScript name, `nameID` 6, if the file has the first seven names in order, once each: the seventh record is
taken, whatever its `nameID`. -/
theorem C81_name_partial {t : FontTables} {d : FontDesc} (h : t.describe = .ok d) (hn : (t.names.take 7).map NameRec.id = [0, 1, 2, 3, 4, 5, 6]) :
    ∃ r ∈ t.names, r.id = 6 ∧ r.text = d.name := by
  obtain ⟨name, os2, h1, h2, h3, h4⟩ := describe_cases h
  refine ⟨name, List.mem_of_getElem? h1, ?_, ?_⟩
  · have : ((t.names.take 7).map NameRec.id)[6]? = some name.id := by
      rw [List.getElem?_map, List.getElem?_take]
      simp [h1]
    rw [hn] at this
    exact (Option.some.inj this).symm
  · unfold FontTables.describe at h
    rw [h1] at h
    simp only [h3, if_false, h2, h4] at h
    cases h
    rfl

/-! ### Fonts for which it fails -/

/-- a font with the seven names that every font should have, and a trademark -/
def ex81 (names : List NameRec) (os2 : Option OS2Table) : FontTables :=
  ⟨names, ⟨2048, -100, -512, 2000, 1900⟩, some ⟨1900, -500⟩, os2, 0, false⟩
def ex81Names : List NameRec :=
  [⟨0, c!"(c) A"⟩, ⟨1, c!"Some"⟩, ⟨2, c!"Regular"⟩, ⟨3, c!"A: Some"⟩, ⟨4, c!"Some Regular"⟩, ⟨5, c!"Version 1"⟩, ⟨6, c!"Some-Regular"⟩, ⟨7, c!"Some is a trademark"⟩]
def ex81OS2 : OS2Table := ⟨4, 700, 8, 1500, -400, 1434⟩

example : (ex81 ex81Names (some ex81OS2)).describe =
    .ok ⟨c!"Some-Regular", 262148, [-100 * (1000 / 2048), -512 * (1000 / 2048), 2000 * (1000 / 2048), 1900 * (1000 / 2048)], 0, 1900 * (1000 / 2048), -500 * (1000 / 2048), 1434 * (1000 / 2048), 165⟩ := by
  decide +kernel

example : LicenceOk ex81OS2.fsType := by
  intro i hi
  by_cases h : i < 4
  · interval_cases i <;> first | rfl | exact absurd (by decide) hi
  · exact Nat.testBit_lt_two_pow (lt_of_lt_of_le (by decide : 8 < 2 ^ 4) (Nat.pow_le_pow_right (by norm_num) (by omega)))

example : ((ex81 ex81Names (some { ex81OS2 with fsType := 2 })).describe, (ex81 ex81Names (some { ex81OS2 with fsType := 0x208 })).describe) = (.error .exception, .error .exception) := by
  decide +kernel

/-- C81 fails for the name if a font has no copyright notice, for example: the trademark is taken -/
theorem C81_name_false : ∃ (t : FontTables) (d : FontDesc) (r : NameRec), t.describe = .ok d ∧ r ∈ t.names ∧ r.id = 6 ∧ r.text = c!"Some-Regular" ∧ d.name = c!"Some is a trademark" :=
  ⟨ex81 ex81Names.tail (some ex81OS2), _, ⟨6, c!"Some-Regular"⟩, (by decide +kernel : _ = Except.ok (⟨c!"Some is a trademark", 262148,
    [-100 * (1000 / 2048), -512 * (1000 / 2048), 2000 * (1000 / 2048), 1900 * (1000 / 2048)], 0, 1900 * (1000 / 2048), -500 * (1000 / 2048), 1434 * (1000 / 2048), 165⟩ : FontDesc)),
    by simp [ex81, ex81Names], rfl, rfl, rfl⟩

/-- and then the font descriptor in the file is not a dictionary that can be read, as the blanks of a name are not escaped -/
theorem C81_unreadable_false : ∃ (t : FontTables) (d : FontDesc), t.describe = .ok d ∧
    ∃ b, (parseObj id (.dict (d.dict fun x => .int x.floor))).1 = .ok (some b) ∧ readObj b = none := by
  refine ⟨ex81 ex81Names.tail (some ex81OS2), _, (by decide +kernel : _ = Except.ok (⟨c!"Some is a trademark", 262148,
    [-100 * (1000 / 2048), -512 * (1000 / 2048), 2000 * (1000 / 2048), 1900 * (1000 / 2048)], 0, 1900 * (1000 / 2048), -500 * (1000 / 2048), 1434 * (1000 / 2048), 165⟩ : FontDesc)), ?_⟩
  exact ⟨_, (by decide +kernel : _ = Except.ok (some b!"<</Type /FontDescriptor/FontName /Some is a trademark/Flags 262148/FontBBox [-49 -250 976 927]/ItalicAngle 0/Ascent 927/Descent -245/CapHeight 700/StemV 165>>")), by decide +kernel⟩

/-- **C81.** If the name of the font has no blanks or other special characters, a reader finds every value of the descriptor under its key, and no other keys;
`value` is the number that is read for a number of the descriptor, when it is written by `num`. -/
theorem C81_written (flate : Bytes → Bytes) (num : Rat → Obj) (value : Rat → PObj) (hnum : ∀ x, meaning (num x) = some (value x)) (d : FontDesc) (hname : nameChars d.name = true) :
    ∃ b, (parseObj flate (.dict (d.dict num))).1 = .ok (some b) ∧ readObj b = some (.dict [(b!"Type", .name b!"FontDescriptor"), (b!"FontName", .name (latinBytes d.name)),
      (b!"Flags", .int d.flags), (b!"FontBBox", .arr (d.bbox.map value)), (b!"ItalicAngle", value d.italicAngle), (b!"Ascent", value d.ascent), (b!"Descent", value d.descent),
      (b!"CapHeight", value d.capHeight), (b!"StemV", .int d.stemV)]) := by
  refine C08_object_roundtrip flate _ _ ?_
  have hl : ∀ l : List Rat, meaningList (l.map num) = some (l.map value) := by
    intro l
    induction l with
    | nil => rfl
    | cons x l ih => simp only [List.map_cons, meaningList, hnum, ih]
  have hn : meaning (nameBytes d.name) = some (.name (latinBytes d.name)) := by
    have : ((d.name.map latin1).all fun c => isRegular c && c != 35) = true := by
      unfold nameChars at hname
      rw [List.all_eq_true] at hname ⊢
      intro c hc
      obtain ⟨x, hx, rfl⟩ := List.mem_map.1 hc
      have := hname x hx
      simp only [Bool.and_eq_true, decide_eq_true_eq, bne_iff_ne, ne_eq] at this ⊢
      refine ⟨this.1.2, fun h => this.2 ?_⟩
      have h1 : (UInt8.ofNat x.toNat).toNat = 35 := by rw [show UInt8.ofNat x.toNat = 35 from h]; rfl
      rw [UInt8.toNat_ofNat', Nat.mod_eq_of_lt this.1.1] at h1
      exact Char.toNat_inj.1 h1
    show (if ((d.name.map latin1).all fun c => isRegular c && c != 35) = true then some (PObj.name (d.name.map latin1)) else none) = _
    rw [if_pos this]
    rfl
  have hs : (d.dict num).any (fun p => p.1 = .str c!"__stream__") = false := rfl
  simp only [meaning, hs, Bool.false_eq_true, if_false]
  have hk : ∀ (k : Str) (v : Obj) (p : PObj) (l : List (Key × Obj)) (ps : List (Bytes × PObj)), nameChars k = true → meaning v = some p → meaningItems l = some ps →
      meaningItems ((.str k, v) :: l) = some ((latinBytes k, p) :: ps) := by
    intro k v p l ps h1 h2 h3
    simp only [meaningItems, h1, if_true, h2, h3]
  have : meaningItems (d.dict num) = some [(b!"Type", .name b!"FontDescriptor"), (b!"FontName", .name (latinBytes d.name)),
      (b!"Flags", .int d.flags), (b!"FontBBox", .arr (d.bbox.map value)), (b!"ItalicAngle", value d.italicAngle), (b!"Ascent", value d.ascent), (b!"Descent", value d.descent),
      (b!"CapHeight", value d.capHeight), (b!"StemV", .int d.stemV)] := by
    unfold FontDesc.dict FontDesc.entries
    refine hk c!"Type" _ _ _ _ (by decide) rfl ?_
    refine hk c!"FontName" _ _ _ _ (by decide) hn ?_
    refine hk c!"Flags" _ _ _ _ (by decide) rfl ?_
    refine hk c!"FontBBox" _ _ _ _ (by decide) (by simp only [meaning, hl]) ?_
    refine hk c!"ItalicAngle" _ _ _ _ (by decide) (hnum _) ?_
    refine hk c!"Ascent" _ _ _ _ (by decide) (hnum _) ?_
    refine hk c!"Descent" _ _ _ _ (by decide) (hnum _) ?_
    refine hk c!"CapHeight" _ _ _ _ (by decide) (hnum _) ?_
    exact hk c!"StemV" _ _ _ _ (by decide) rfl rfl
  rw [this]

example : nameChars c!"Some-Regular" = true ∧ ∀ x : Rat, meaning (.int x.floor) = some (.int x.floor) := ⟨by decide, fun _ => rfl⟩

/-- C81 fails for fonts with fewer than seven names, which cannot be loaded -/
theorem C81_few_names_false (t : FontTables) (h : t.names.length ≤ 6) : t.describe = .error .indexError := by
  unfold FontTables.describe
  rw [List.getElem?_eq_none h]

/-- C81 fails for fonts without a table `OS/2`, none of which can be loaded, though the code is meant to do so -/
theorem C81_no_os2_false (t : FontTables) (h : t.os2 = none) : ∀ d, t.describe ≠ .ok d := by
  intro d hd
  obtain ⟨name, os2, -, h2, -⟩ := describe_cases hd
  rw [h] at h2
  cases h2

end Verif
