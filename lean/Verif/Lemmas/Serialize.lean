import Verif.Spec.PdfObj
import Verif.Lemmas.Lex
import Verif.Lemmas.Parser
/-! Lemmas: the bytes of `parse_obj` read back by the specification reader. -/
namespace Verif
open Spec

theorem latin1_inj {c d : Char} (hc : isLatin c = true) (hd : isLatin d = true)
    (h : latin1 c = latin1 d) : c = d := by
  simp only [isLatin, decide_eq_true_eq] at hc hd
  have h1 := latin1_toNat hc
  have h2 := latin1_toNat hd
  rw [h] at h1
  exact Char.toNat_inj.1 (by omega)

theorem encodeLatin_ok {s : Str} (h : s.all isLatin = true) : encodeLatin s = .ok (s.map latin1) := by
  simp [encodeLatin, h]

theorem encodeLatin_err {s : Str} (h : s.all isLatin = false) :
    encodeLatin s = .error .unicodeError := by
  simp [encodeLatin, h]

/-- the characters that `parse_obj` transports faithfully inside a string -/
def safeChar (c : Char) : Bool := isLatin c && c != '\\' && c != '\r'

theorem escParens_latin {s : Str} : (escParens s).all isLatin = s.all isLatin := by
  induction s with
  | nil => rfl
  | cons c s ih =>
    unfold escParens
    split
    · rename_i h
      rcases h with rfl | rfl <;> simp [ih] <;> simp [isLatin]
    · simp [ih]

theorem lexFrom_escParens {s : Str} (h : s.all safeChar = true) (acc rest : Bytes) :
    lexFrom (.str 0 .plain acc) ((escParens s).map latin1 ++ rest)
      = lexFrom (.str 0 .plain (acc ++ s.map latin1)) rest := by
  induction s generalizing acc with
  | nil => simp [escParens]
  | cons c s ih =>
    simp only [List.all_cons, Bool.and_eq_true] at h
    obtain ⟨hc, hs⟩ := h
    simp only [safeChar, Bool.and_eq_true, bne_iff_ne] at hc
    unfold escParens
    split
    · rename_i hp
      simp only [List.map_cons, List.cons_append]
      have h92 : latin1 '\\' = 92 := by decide
      rw [h92, lexFrom_str_esc (by rcases hp with rfl | rfl <;> decide), ih hs]
      simp
    · rename_i hp
      have ne : ∀ d : Char, isLatin d = true → c ≠ d → latin1 c ≠ latin1 d :=
        fun d hd hne heq => hne (latin1_inj hc.1.1 hd heq)
      have hpl : PlainByte (latin1 c) := by
        refine ⟨ne '\\' (by decide) hc.1.2, ne '(' (by decide) ?_, ne ')' (by decide) ?_,
          ne '\r' (by decide) hc.2⟩
        · intro h'; exact hp (.inl h')
        · intro h'; exact hp (.inr h')
      simp only [List.map_cons, List.cons_append]
      rw [lexFrom_str_plain hpl, ih hs]
      simp

theorem lexTo_str {s : Str} (h : s.all safeChar = true) :
    LexTo (('(' :: escParens s ++ [')']).map latin1) [.str (s.map latin1)] := by
  intro rest hr
  have h40 : latin1 '(' = 40 := by decide
  have h41 : latin1 ')' = 41 := by decide
  simp only [List.map_cons, List.map_append, List.cons_append, h40, List.map_nil, h41,
    List.append_assoc, List.nil_append]
  rw [lexFrom_str_open, lexFrom_escParens h, lexFrom_str_close]
  simp

theorem shiftAll_append (st : List Item) (t u : List Tok) :
    shiftAll st (t ++ u) = (shiftAll st t).bind fun st => shiftAll st u := by
  induction t generalizing st with
  | nil => simp [shiftAll]
  | cons a t ih =>
    simp only [List.cons_append, shiftAll]
    cases shift st a with
    | none => simp
    | some st' => simp [ih]

theorem regular_of_digit {c : Char} (h : c.isDigit) : isRegular (latin1 c) = true := by
  have h1 := isDigit_range h
  have h2 := latin1_toNat (c := c) (by omega)
  have : ∀ k : Nat, 48 ≤ k → k ≤ 57 → isRegular (UInt8.ofNat k) = true := by
    intro k h1 h2
    obtain rfl | rfl | rfl | rfl | rfl | rfl | rfl | rfl | rfl | rfl :
      k = 48 ∨ k = 49 ∨ k = 50 ∨ k = 51 ∨ k = 52 ∨ k = 53 ∨ k = 54 ∨ k = 55 ∨ k = 56 ∨ k = 57 := by
        omega
    all_goals decide
  exact this c.toNat h1.1 h1.2

theorem intStr_regular (i : Int) : ∀ c ∈ (intStr i).map latin1, isRegular c = true := by
  intro b hb
  simp only [List.mem_map] at hb
  obtain ⟨c, hc, rfl⟩ := hb
  cases i with
  | ofNat n => exact regular_of_digit (natStr_digit hc)
  | negSucc n =>
    simp only [intStr, List.mem_cons] at hc
    rcases hc with rfl | hc
    · decide
    · exact regular_of_digit (natStr_digit hc)

theorem intStr_ne_nil (i : Int) : intStr i ≠ [] := by
  cases i with
  | ofNat n => exact natStr_ne_nil n
  | negSucc n => simp [intStr]

theorem natStr_head {n : Nat} {l : Bytes} {c : UInt8} (h : (natStr n).map latin1 = c :: l) :
    48 ≤ c.toNat ∧ c.toNat ≤ 57 := by
  cases hs : natStr n with
  | nil => exact absurd hs (natStr_ne_nil n)
  | cons d ds =>
    have hd := isDigit_range (natStr_digit (n := n) (c := d) (by simp [hs]))
    rw [hs] at h
    simp only [List.map_cons, List.cons.injEq] at h
    rw [← h.1, latin1_toNat (by omega)]
    exact hd

theorem readInt_intStr (i : Int) : readInt ((intStr i).map latin1) = some i := by
  cases i with
  | ofNat n =>
    simp only [intStr]
    unfold readInt
    split
    · rename_i h; have := natStr_head h; simp at this
    · rename_i h; have := natStr_head h; simp at this
    · rw [if_pos (isDecimal_natStr n), decVal_natStr]; rfl
  | negSucc n =>
    have h45 : latin1 '-' = 45 := by decide
    simp only [intStr, List.map_cons, h45]
    simp only [readInt, isDecimal_natStr, if_true, decVal_natStr]
    rfl

theorem shift_int (i : Int) (st : List Item) :
    shift st (.word ((intStr i).map latin1)) = some (.obj (.int i) :: st) := by
  have h := readInt_intStr i
  generalize (intStr i).map latin1 = b at h
  have h1 : b ≠ b!"R" := by rintro rfl; revert h; simp [readInt, isDecimal]
  have h2 : b ≠ b!"true" := by rintro rfl; revert h; simp [readInt, isDecimal]
  have h3 : b ≠ b!"false" := by rintro rfl; revert h; simp [readInt, isDecimal]
  have h4 : b ≠ b!"null" := by rintro rfl; revert h; simp [readInt, isDecimal]
  simp only [shift, h1, h2, h3, h4, if_false, h]

theorem readInt_real {b : Bytes} (h : isReal b = true) : readInt b = none := by
  have key : ∀ ds : Bytes, ds.countP (· == 46) = 1 → isDecimal ds = false := by
    intro ds hds
    have : ∃ c ∈ ds, (c == 46) = true := List.countP_pos_iff.1 (by omega)
    obtain ⟨c, hc, h46⟩ := this
    simp only [beq_iff_eq] at h46
    subst h46
    simp only [isDecimal, Bool.and_eq_false_iff, List.all_eq_false]
    exact .inr ⟨46, hc, by decide⟩
  simp only [isReal, Bool.and_eq_true, beq_iff_eq] at h
  obtain ⟨⟨_, h⟩, _⟩ := h
  unfold readInt
  split <;> simp_all

theorem regular_numeric {c : UInt8} (h : (48 ≤ c && c ≤ 57 || c == 46) = true) : isRegular c = true := by
  have : ∀ c : Fin 256, ((48 : UInt8) ≤ UInt8.ofNat c.1 && UInt8.ofNat c.1 ≤ (57 : UInt8) ||
      UInt8.ofNat c.1 == 46) = true → isRegular (UInt8.ofNat c.1) = true := by decide +kernel
  have h2 := this ⟨c.toNat, c.toNat_lt⟩
  simp only [UInt8.ofNat_toNat] at h2
  exact h2 h

theorem real_regular {b : Bytes} (h : isReal b = true) : ∀ c ∈ b, isRegular c = true := by
  simp only [isReal, Bool.and_eq_true, List.all_eq_true] at h
  obtain ⟨⟨h, _⟩, _⟩ := h
  intro c hc
  split at h
  · rcases List.mem_cons.1 hc with rfl | hc
    · decide
    · exact regular_numeric (h c hc)
  · rcases List.mem_cons.1 hc with rfl | hc
    · decide
    · exact regular_numeric (h c hc)
  · exact regular_numeric (h c hc)

theorem shift_real {b : Bytes} (h : isReal b = true) (st : List Item) :
    shift st (.word b) = some (.obj (.real b) :: st) := by
  have h0 := readInt_real h
  have h1 : b ≠ b!"R" := by rintro rfl; revert h; decide
  have h2 : b ≠ b!"true" := by rintro rfl; revert h; decide
  have h3 : b ≠ b!"false" := by rintro rfl; revert h; decide
  have h4 : b ≠ b!"null" := by rintro rfl; revert h; decide
  simp only [shift, h1, h2, h3, h4, if_false, h0, h, if_true]

/-- the token list reads as the object `p` whatever is on the stack -/
def ReadsTo (t : List Tok) (p : PObj) : Prop := ∀ st, shiftAll st t = some (.obj p :: st)

theorem popArr_objs (l : List PObj) (st : List Item) (acc : List PObj) :
    popArr (l.reverse.map Item.obj ++ .openArr :: st) acc = some (l ++ acc, st) := by
  generalize hr : l.reverse = r
  have : l = r.reverse := by simp [← hr]
  subst this
  clear hr
  induction r generalizing acc with
  | nil => simp [popArr]
  | cons o r ih =>
    simp only [List.map_cons, List.cons_append, popArr]
    rw [ih]
    simp

theorem popDict_objs (l : List PObj) (st : List Item) (acc : List PObj) :
    popDict (l.reverse.map Item.obj ++ .openDict :: st) acc = some (l ++ acc, st) := by
  generalize hr : l.reverse = r
  have : l = r.reverse := by simp [← hr]
  subst this
  clear hr
  induction r generalizing acc with
  | nil => simp [popDict]
  | cons o r ih =>
    simp only [List.map_cons, List.cons_append, popDict]
    rw [ih]
    simp

end Verif
