import Verif.Spec.PdfLex
import Verif.Lemmas.Digits
/-! Lemmas about the specification lexer: which byte strings lex to which tokens. -/
namespace Verif
open Spec

/-- a position where a word or name ends -/
def Sep : Bytes → Prop
  | [] => True
  | c :: _ => isRegular c = false

@[simp] theorem sep_nil : Sep [] := trivial
@[simp] theorem sep_cons {c : UInt8} {l : Bytes} : Sep (c :: l) ↔ isRegular c = false := Iff.rfl

/-- `b` lexes to exactly `t` wherever it is followed by a separator -/
def LexTo (b : Bytes) (t : List Tok) : Prop :=
  ∀ rest, Sep rest → lexFrom .idle (b ++ rest) = t ++ lexFrom .idle rest

theorem lexFrom_cons (s : LexState) (c : UInt8) (cs : Bytes) :
    lexFrom s (c :: cs) = (lexStep s c).2 ++ lexFrom (lexStep s c).1 cs := rfl

theorem LexTo.lex {b : Bytes} {t : List Tok} (h : LexTo b t) : lex b = t := by
  have := h [] trivial
  simpa [Spec.lex, lexFrom, lexFlush] using this

theorem LexTo.nil : LexTo [] [] := by intro rest _; simp

/-- concatenation when the second part starts with a separator -/
theorem LexTo.append {a b : Bytes} {t u : List Tok} (ha : LexTo a t) (hb : LexTo b u)
    (hs : ∀ rest, Sep rest → Sep (b ++ rest)) : LexTo (a ++ b) (t ++ u) := by
  intro rest hr
  rw [List.append_assoc, ha _ (hs rest hr), hb rest hr, List.append_assoc]

theorem lexFrom_white {c : UInt8} (h : isWhite c = true) (rest : Bytes) :
    lexFrom .idle (c :: rest) = lexFrom .idle rest := by
  simp [lexFrom_cons, lexStep, idleStep, h]

theorem LexTo.white {c : UInt8} (h : isWhite c = true) {b : Bytes} {t : List Tok} (hb : LexTo b t) :
    LexTo (c :: b) t := by
  intro rest hr
  rw [List.cons_append, lexFrom_white h, hb rest hr]

theorem LexTo.space {b : Bytes} {t : List Tok} (hb : LexTo b t) : LexTo (32 :: b) t :=
  hb.white (by decide)

theorem LexTo.append_space {a b : Bytes} {t u : List Tok} (ha : LexTo a t) (hb : LexTo b u) :
    LexTo (a ++ 32 :: b) (t ++ u) :=
  ha.append hb.space (by intro r _; simp; decide)

theorem regular_idle {c : UInt8} (h : isRegular c = true) : idleStep c = (.word [c], []) := by
  simp only [isRegular, Bool.and_eq_true, Bool.not_eq_true', isDelim, Bool.or_eq_false_iff,
    beq_eq_false_iff_ne] at h
  obtain ⟨hw, hd⟩ := h
  simp only [idleStep, hw]
  simp [hd]

theorem lexFrom_word {acc w : Bytes} (hw : ∀ c ∈ w, isRegular c = true) {rest : Bytes}
    (hr : Sep rest) : lexFrom (.word acc) (w ++ rest) = .word (acc ++ w) :: lexFrom .idle rest := by
  induction w generalizing acc with
  | nil =>
    cases rest with
    | nil => simp [lexFrom, lexFlush]
    | cons c cs =>
      simp only [sep_cons] at hr
      simp [lexFrom_cons, lexStep, hr]
  | cons c w ih =>
    have hc := hw c (by simp)
    simp only [List.cons_append, lexFrom_cons, lexStep, hc, if_true]
    rw [ih fun c hc => hw c (by simp [hc])]
    simp

theorem LexTo.word {w : Bytes} (hne : w ≠ []) (hw : ∀ c ∈ w, isRegular c = true) :
    LexTo w [.word w] := by
  intro rest hr
  cases w with
  | nil => exact absurd rfl hne
  | cons c w =>
    simp only [List.cons_append, lexFrom_cons, lexStep]
    rw [regular_idle (hw c (by simp)), lexFrom_word (fun c hc => hw c (by simp [hc])) hr]
    simp

theorem lexFrom_name {acc w : Bytes} (hw : ∀ c ∈ w, isRegular c = true) {rest : Bytes}
    (hr : Sep rest) :
    lexFrom (.name acc) (w ++ rest) = .name (unhash (acc ++ w)) :: lexFrom .idle rest := by
  induction w generalizing acc with
  | nil =>
    cases rest with
    | nil => simp [lexFrom, lexFlush]
    | cons c cs =>
      simp only [sep_cons] at hr
      simp [lexFrom_cons, lexStep, hr]
  | cons c w ih =>
    have hc := hw c (by simp)
    simp only [List.cons_append, lexFrom_cons, lexStep, hc, if_true]
    rw [ih fun c hc => hw c (by simp [hc])]
    simp

theorem LexTo.nameH {w : Bytes} (hw : ∀ c ∈ w, isRegular c = true) :
    LexTo (47 :: w) [.name (unhash w)] := by
  intro rest hr
  simp only [List.cons_append, lexFrom_cons, lexStep]
  have : idleStep 47 = (.name [], []) := by decide
  rw [this, lexFrom_name hw hr]
  simp

theorem unhash_id {w : Bytes} (h : 35 ∉ w) : unhash w = w := by
  induction w with
  | nil => simp [unhash]
  | cons c w ih =>
    have hc : c ≠ 35 := by intro h'; simp [h'] at h
    have hw : 35 ∉ w := by intro h'; simp [h'] at h
    unfold unhash
    split
    · rename_i heq; simp only [List.cons.injEq] at heq; exact absurd heq.1 hc
    · rename_i heq; simp only [List.cons.injEq] at heq; rw [← heq.1, ← heq.2, ih hw]
    · rename_i heq; simp at heq

theorem LexTo.name {w : Bytes} (hw : ∀ c ∈ w, isRegular c = true) (h35 : 35 ∉ w) :
    LexTo (47 :: w) [.name w] := by
  have := LexTo.nameH hw
  rwa [unhash_id h35] at this

/-- a hexadecimal string -/
theorem lexFrom_hex {acc w : Bytes} (hw : 62 ∉ w) (rest : Bytes) :
    lexFrom (.hex acc) (w ++ 62 :: rest) = .hex (acc ++ w) :: lexFrom .idle rest := by
  induction w generalizing acc with
  | nil => simp [lexFrom_cons, lexStep]
  | cons c w ih =>
    have hc : c ≠ 62 := by intro h'; simp [h'] at hw
    simp only [List.cons_append, lexFrom_cons, lexStep, hc, if_false]
    rw [ih (by intro h'; simp [h'] at hw)]
    simp

theorem LexTo.hex {w : Bytes} (h60 : 60 ∉ w) (h62 : 62 ∉ w) :
    LexTo (60 :: (w ++ [62])) [.hex w] := by
  intro rest hr
  cases w with
  | nil => simp [lexFrom_cons, lexStep, idleStep, isWhite]
  | cons c w =>
    have hc : c ≠ 60 := by intro h'; simp [h'] at h60
    have hc2 : c ≠ 62 := by intro h'; simp [h'] at h62
    have : idleStep 60 = (.lt, []) := by decide
    simp only [List.cons_append, lexFrom_cons, lexStep, this, hc, hc2, if_false]
    rw [List.append_assoc, List.singleton_append, lexFrom_hex (by intro h'; simp [h'] at h62)]
    simp

theorem lexFrom_lbrack (rest : Bytes) : lexFrom .idle (91 :: rest) = .lbrack :: lexFrom .idle rest := by
  simp [lexFrom_cons, lexStep, idleStep, isWhite]

theorem lexFrom_rbrack (rest : Bytes) : lexFrom .idle (93 :: rest) = .rbrack :: lexFrom .idle rest := by
  simp [lexFrom_cons, lexStep, idleStep, isWhite]

theorem lexFrom_dictOpen (rest : Bytes) :
    lexFrom .idle (60 :: 60 :: rest) = .dictOpen :: lexFrom .idle rest := by
  simp [lexFrom_cons, lexStep, idleStep, isWhite]

theorem lexFrom_dictClose (rest : Bytes) :
    lexFrom .idle (62 :: 62 :: rest) = .dictClose :: lexFrom .idle rest := by
  simp [lexFrom_cons, lexStep, idleStep, isWhite]

/-! ### literal strings -/

/-- a byte that stands for itself in a literal string -/
def PlainByte (c : UInt8) : Prop := c ≠ 92 ∧ c ≠ 40 ∧ c ≠ 41 ∧ c ≠ 13

theorem lexFrom_str_plain {d : Nat} {acc : Bytes} {c : UInt8} (h : PlainByte c) (rest : Bytes) :
    lexFrom (.str d .plain acc) (c :: rest) = lexFrom (.str d .plain (acc ++ [c])) rest := by
  obtain ⟨h1, h2, h3, h4⟩ := h
  simp [lexFrom_cons, lexStep, strStep, strPlain, h1, h2, h3, h4]

/-- backslash followed by a parenthesis or a backslash -/
theorem lexFrom_str_esc {d : Nat} {acc : Bytes} {c : UInt8} (h : c = 92 ∨ c = 40 ∨ c = 41)
    (rest : Bytes) :
    lexFrom (.str d .plain acc) (92 :: c :: rest) = lexFrom (.str d .plain (acc ++ [c])) rest := by
  rcases h with rfl | rfl | rfl <;> simp [lexFrom_cons, lexStep, strStep, strPlain, isOct]

theorem lexFrom_str_close {acc : Bytes} (rest : Bytes) :
    lexFrom (.str 0 .plain acc) (41 :: rest) = .str acc :: lexFrom .idle rest := by
  simp [lexFrom_cons, lexStep, strStep, strPlain]

theorem lexFrom_str_open (rest : Bytes) :
    lexFrom .idle (40 :: rest) = lexFrom (.str 0 .plain []) rest := by
  simp [lexFrom_cons, lexStep, idleStep, isWhite]

end Verif
