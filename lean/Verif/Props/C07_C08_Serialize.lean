import Verif.Lemmas.Roundtrip
/-!
# C07, C08: serialised values read back
-/
namespace Verif
open Spec

/-! ## C07 -/

/-- What C07 asks of one string: it is written as a PDF string with exactly its latin-1 bytes. -/
def StringSurvives (flate : Bytes → Bytes) (s : Str) : Prop :=
  ∃ b, (parseObj flate (.str s)).1 = .ok (some b) ∧ readObj b = some (.str (latinBytes s))

/-- C07 for strings without backslashes and carriage returns.
Missing for the full statement: strings with `\` or CR, for which it is false (below). -/
theorem C07_string_roundtrip_partial (flate : Bytes → Bytes) (s : Str) (h : stringChars s = true) :
    StringSurvives flate s := by
  have hl : (('(' :: escParens s ++ [')']).all isLatin) = true := by
    have : s.all isLatin = true := by
      rw [stringChars_eq] at h
      simp only [List.all_eq_true] at h ⊢
      intro c hc
      have := h c hc
      simp only [safeChar, Bool.and_eq_true] at this
      exact this.1.1
    simp only [List.cons_append, List.all_cons, List.all_append, escParens_latin, this]
    decide
  refine ⟨('(' :: escParens s ++ [')']).map latin1, by simp only [parseObj, encodeLatin_ok hl], ?_⟩
  rw [readObj, (lexTo_str (by rwa [stringChars_eq] at h)).lex]
  rfl

/-- Strings outside latin-1 are rejected, and nothing is changed. -/
theorem C07_string_rejected (flate : Bytes → Bytes) (s : Str) (h : ∃ c ∈ s, 256 ≤ c.toNat) :
    parseObj flate (.str s) = (.error .unicodeError, .str s) := by
  have : (('(' :: escParens s ++ [')']).all isLatin) = false := by
    obtain ⟨c, hc, hn⟩ := h
    have : s.all isLatin = false := by
      simp only [List.all_eq_false]
      exact ⟨c, hc, by simp [isLatin]; omega⟩
    simp only [List.cons_append, List.all_cons, List.all_append, escParens_latin, this]
    simp
  simp only [parseObj, encodeLatin_err this]

/-- The full C07 is false: a single backslash makes the string unterminated. -/
theorem C07_string_roundtrip_false (flate : Bytes → Bytes) :
    ¬ ∀ s : Str, (∀ c ∈ s, c.toNat < 256) → StringSurvives flate s := by
  intro h
  obtain ⟨b, hb, hr⟩ := h c!"\\" (by decide)
  have : b = b!"(\\)" := by
    have h2 : (parseObj flate (.str c!"\\")).1 = .ok (some b!"(\\)") := rfl
    rw [h2] at hb
    simpa using hb.symm
  subst this
  have : readObj b!"(\\)" = none := by rfl
  simp [this] at hr

/-- ... and a backslash can silently change the text: the two characters `\n` become a line feed. -/
theorem C07_backslash_altered (flate : Bytes → Bytes) :
    ∃ b, (parseObj flate (.str c!"a\\nb")).1 = .ok (some b) ∧ readObj b = some (.str b!"a\nb") :=
  ⟨b!"(a\\nb)", rfl, rfl⟩

/-- ... and a carriage return is read as a line feed. -/
theorem C07_cr_altered (flate : Bytes → Bytes) :
    ∃ b, (parseObj flate (.str c!"a\rb")).1 = .ok (some b) ∧ readObj b = some (.str b!"a\nb") :=
  ⟨b!"(a\rb)", rfl, rfl⟩

example : stringChars c!"naïve (nested (parens)) ) unbalanced\n" = true := by decide
example (flate : Bytes → Bytes) : StringSurvives flate c!"naïve ) (" :=
  C07_string_roundtrip_partial flate _ (by decide)

/-! ## C08 -/

/-- C08: every value that stands for a PDF object is serialised to bytes from which a PDF reader gets
exactly that object back. -/
theorem C08_object_roundtrip (flate : Bytes → Bytes) (o : Obj) (p : PObj) (h : meaning o = some p) :
    ∃ b, (parseObj flate o).1 = .ok (some b) ∧ readObj b = some p := by
  obtain ⟨c, cs, t, hr, hl, hs⟩ := obj_ok flate o p h
  refine ⟨_, hr, ?_⟩
  rw [readObj, hl.lex, hs []]

/-- Consumes exactly those bytes: the object is also read correctly when other data follow after
white space (as `"\nendobj\n"` does in the file). -/
theorem C08_object_self_delimiting (flate : Bytes → Bytes) (o : Obj) (p : PObj)
    (h : meaning o = some p) :
    ∃ b t, (parseObj flate o).1 = .ok (some b) ∧ shiftAll [] t = some [.obj p] ∧
      ∀ c rest, isWhite c = true → lex (b ++ c :: rest) = t ++ lex rest := by
  obtain ⟨c, cs, t, hr, hl, hs⟩ := obj_ok flate o p h
  refine ⟨_, t, hr, hs [], ?_⟩
  intro w rest hw
  have := hl (w :: rest) (by simp [isRegular, hw])
  rw [lex, this, lexFrom_white hw]
  rfl

/-- A non-trivial instance: nested dict with an array of every kind of leaf. -/
example : meaning (.dict [(.str c!"Kids", .seq [.ref 3, .int (-7), .bool true, .flt c!"0.5",
      .str c!"a (b)", .bytes b!"/Name", .dict [], .seq [.int 1, .int 0, .ref 12]]),
      (.str c!"Type", .bytes b!"/Pages")]) =
    some (.dict [(b!"Kids", .arr [.ref 3 0, .int (-7), .bool true, .real b!"0.5", .str b!"a (b)",
      .name b!"Name", .dict [], .arr [.int 1, .int 0, .ref 12 0]]), (b!"Type", .name b!"Pages")]) := by
  rfl

end Verif
