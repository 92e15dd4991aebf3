import Verif.Model.TextOut
import Verif.Spec.Literal
import Verif.Lemmas.Machine
/-! Reading escaped text as a literal string. -/
namespace Verif
open Spec

/-- a byte escaped -/
def escByte (c : UInt8) : Bytes := if c = 92 ∨ c = 40 ∨ c = 41 then [92, c] else [c]

/-- a character escaped -/
def escChar (c : Char) : Str := if c = '\\' ∨ c = '(' ∨ c = ')' then ['\\', c] else [c]

theorem escapeString_eq (s : Str) : escapeString s = s.flatMap escChar := by
  unfold escapeString replaceChar
  induction s with
  | nil => rfl
  | cons c s ih =>
    simp only [List.flatMap_cons, List.flatMap_append, ih]
    congr 1
    by_cases h1 : c = '\\'
    · subst h1; decide
    · by_cases h2 : c = '('
      · subst h2; decide
      · by_cases h3 : c = ')'
        · subst h3; decide
        · simp [escChar, h1, h2, h3]

theorem latin1_eq {c d : Char} (hc : isLatin c = true) (hd : isLatin d = true) : latin1 c = latin1 d ↔ c = d := by
  constructor
  · intro h
    have := congrArg UInt8.toNat h
    rw [latin1_toNat (by simpa [isLatin] using hc), latin1_toNat (by simpa [isLatin] using hd)] at this
    exact Char.toNat_inj.1 this
  · rintro rfl; rfl

theorem bytesOf_escChar {c : Char} (h : isLatin c = true) : bytesOf (escChar c) = escByte (latin1 c) := by
  have e1 : (92 : UInt8) = latin1 '\\' := by decide
  have e2 : (40 : UInt8) = latin1 '(' := by decide
  have e3 : (41 : UInt8) = latin1 ')' := by decide
  unfold escChar escByte
  simp only [e1, e2, e3, latin1_eq h (show isLatin '\\' = true by decide), latin1_eq h (show isLatin '(' = true by decide),
    latin1_eq h (show isLatin ')' = true by decide)]
  split <;> rfl

theorem bytesOf_flatMap (s : Str) (h : ∀ c ∈ s, isLatin c = true) :
    bytesOf (s.flatMap escChar) = (bytesOf s).flatMap escByte := by
  induction s with
  | nil => rfl
  | cons c s ih =>
    have := ih fun c hc => h c (by simp [hc])
    simp only [bytesOf, List.flatMap_cons, List.map_append, List.map_cons] at this ⊢
    rw [this]
    congr 1
    exact bytesOf_escChar (h c (by simp))

theorem bytesOf_escapeString {s : Str} (h : ∀ c ∈ s, isLatin c = true) :
    bytesOf (escapeString s) = (bytesOf s).flatMap escByte := by
  rw [escapeString_eq, bytesOf_flatMap s h]

theorem lexStep_cr {acc : Bytes} {c : UInt8} (h : c ≠ 10) :
    lexStep (.str 0 .cr acc) c = lexStep (.str 0 .plain acc) c := by
  simp [lexStep, strStep, h]

/-- the rest of an escaped literal string -/
theorem lexFrom_escaped (rest : Bytes) : ∀ (s acc : Bytes) (cr : Bool),
    lexFrom (.str 0 (if cr then .cr else .plain) acc) (s.flatMap escByte ++ 41 :: rest) =
      .str (acc ++ eolFrom cr s) :: lexFrom .idle rest := by
  intro s
  induction s with
  | nil =>
    intro acc cr
    have : lexFrom (.str 0 (if cr then .cr else .plain) acc) (41 :: rest) = lexFrom (.str 0 .plain acc) (41 :: rest) := by
      cases cr
      · rfl
      · simp only [if_true, lexFrom_cons]; rw [lexStep_cr (by decide)]
    simp only [List.flatMap_nil, List.nil_append]
    rw [this, lexFrom_str_close]
    simp [eolFrom]
  | cons c s ih =>
    intro acc cr
    by_cases h13 : c = 13
    · subst h13
      have e : lexStep (.str 0 (if cr then .cr else .plain) acc) 13 = (.str 0 .cr (acc ++ [10]), []) := by
        cases cr <;> simp [lexStep, strStep, strPlain]
      have e2 : escByte 13 = [13] := by decide
      rw [List.flatMap_cons, e2, List.append_assoc, List.singleton_append, lexFrom_cons, e]
      have := ih (acc ++ [10]) true
      simp only [if_true] at this
      rw [List.nil_append, this]
      simp [eolFrom]
    · by_cases h10 : cr = true ∧ c = 10
      · obtain ⟨rfl, rfl⟩ := h10
        have e2 : escByte 10 = [10] := by decide
        rw [List.flatMap_cons, e2, List.append_assoc, List.singleton_append, lexFrom_cons]
        have e : lexStep (.str 0 (if true then .cr else .plain) acc) 10 = (.str 0 .plain acc, []) := by
          simp [lexStep, strStep]
        have := ih acc false
        rw [e, List.nil_append]
        simp only [Bool.false_eq_true, if_false] at this
        rw [this]
        simp [eolFrom]
      · have hcr : lexFrom (.str 0 (if cr then .cr else .plain) acc) ((c :: s).flatMap escByte ++ 41 :: rest) =
            lexFrom (.str 0 .plain acc) ((c :: s).flatMap escByte ++ 41 :: rest) := by
          cases cr
          · rfl
          · have h10' : c ≠ 10 := fun h => h10 ⟨rfl, h⟩
            rw [List.flatMap_cons]
            by_cases h : c = 92 ∨ c = 40 ∨ c = 41
            · rw [show escByte c = [92, c] from if_pos h]
              simp only [if_true, List.cons_append, lexFrom_cons]
              rw [lexStep_cr (by decide)]
            · rw [show escByte c = [c] from if_neg h]
              simp only [if_true, List.cons_append, lexFrom_cons]
              rw [lexStep_cr h10']
        rw [hcr, List.flatMap_cons]
        have := ih (acc ++ [c]) false
        simp only [Bool.false_eq_true, if_false] at this
        have e : eolFrom cr (c :: s) = c :: eolFrom false s := by
          rw [eolFrom, if_neg h13, if_neg h10]
        rw [e]
        by_cases h : c = 92 ∨ c = 40 ∨ c = 41
        · rw [show escByte c = [92, c] from if_pos h]
          show lexFrom (.str 0 .plain acc) (92 :: c :: (s.flatMap escByte ++ 41 :: rest)) = _
          rw [lexFrom_str_esc h]
          exact this.trans (by simp)
        · rw [show escByte c = [c] from if_neg h]
          have h' : PlainByte c := ⟨fun e => h (Or.inl e), fun e => h (Or.inr (Or.inl e)), fun e => h (Or.inr (Or.inr e)), h13⟩
          show lexFrom (.str 0 .plain acc) (c :: (s.flatMap escByte ++ 41 :: rest)) = _
          rw [lexFrom_str_plain h']
          exact this.trans (by simp)

/-- an escaped literal string -/
theorem lexTo_literal (s : Bytes) : LexTo (40 :: (s.flatMap escByte ++ [41])) [.str (eol s)] := by
  intro rest _
  rw [List.cons_append, List.append_assoc, List.singleton_append, lexFrom_str_open]
  exact lexFrom_escaped rest s [] false

theorem eol_id {s : Bytes} (h : 13 ∉ s) : eol s = s := by
  unfold eol
  induction s with
  | nil => rfl
  | cons c s ih =>
    have h1 : c ≠ 13 := by intro e; simp [e] at h
    rw [eolFrom, if_neg h1, if_neg (by simp), ih (by intro e; simp [e] at h)]

/-- `(text)Tj` with escaped text -/
theorem opsTo_show {t : Str} {b : Bytes} (h : bytesOf t = b.flatMap escByte) :
    OpsTo (c!" (" ++ t ++ c!")Tj") [⟨[.str (eol b)], b!"Tj"⟩] := by
  apply OpsTo.op (w := b!"Tj") (by decide) (by simp [Operand.Ok])
  have e : bytesOf (c!" (" ++ t ++ c!")Tj") = 32 :: ((40 :: (b.flatMap escByte ++ [41])) ++ b!"Tj") := by
    simp only [bytesOf, List.map_append] at h ⊢
    rw [h]
    simp [latin1]
  rw [e]
  refine LexTo.space ?_
  intro rest hr
  have h1 := lexTo_literal b
  -- the closing parenthesis separates
  rw [List.append_assoc, List.cons_append, List.append_assoc, List.singleton_append, lexFrom_str_open]
  have := lexFrom_escaped (b!"Tj" ++ rest) b [] false
  simp only [Bool.false_eq_true, if_false, List.nil_append] at this
  rw [this]
  have h2 : LexTo b!"Tj" [.word b!"Tj"] := LexTo.word (by decide) (by decide)
  rw [h2 rest hr]
  rfl

/-- balanced text without backslashes and carriage returns stands for itself -/
theorem lexFrom_balanced (rest : Bytes) : ∀ (s acc : Bytes) (d : Nat), balanced d s = true → 92 ∉ s → 13 ∉ s →
    lexFrom (.str d .plain acc) (s ++ 41 :: rest) = .str (acc ++ s) :: lexFrom .idle rest := by
  intro s
  induction s with
  | nil =>
    intro acc d h _ _
    simp only [balanced, decide_eq_true_eq] at h
    subst h
    simpa using lexFrom_str_close (acc := acc) rest
  | cons c s ih =>
    intro acc d h h1 h2
    have n1 : c ≠ 92 := by intro e; simp [e] at h1
    have n2 : c ≠ 13 := by intro e; simp [e] at h2
    have m1 : 92 ∉ s := by intro e; simp [e] at h1
    have m2 : 13 ∉ s := by intro e; simp [e] at h2
    rw [List.cons_append, lexFrom_cons]
    unfold balanced at h
    by_cases h40 : c = 40
    · subst h40
      rw [if_pos rfl] at h
      have e : lexStep (.str d .plain acc) 40 = (.str (d + 1) .plain (acc ++ [40]), []) := by
        simp [lexStep, strStep, strPlain]
      rw [e, List.nil_append, ih _ _ h m1 m2]
      simp
    · rw [if_neg h40] at h
      by_cases h41 : c = 41
      · subst h41
        rw [if_pos rfl] at h
        cases d with
        | zero => simp at h
        | succ d =>
          have e : lexStep (.str (d + 1) .plain acc) 41 = (.str d .plain (acc ++ [41]), []) := by
            simp [lexStep, strStep, strPlain]
          rw [e, List.nil_append, ih _ _ h m1 m2]
          simp
      · rw [if_neg h41] at h
        have e : lexStep (.str d .plain acc) c = (.str d .plain (acc ++ [c]), []) := by
          simp [lexStep, strStep, strPlain, n1, n2, h40, h41]
        rw [e, List.nil_append, ih _ _ h m1 m2]
        simp

theorem opsTo_show_raw {t : Str} (h : balanced 0 (bytesOf t) = true) (h1 : 92 ∉ bytesOf t) (h2 : 13 ∉ bytesOf t) :
    OpsTo (c!" (" ++ t ++ c!")Tj") [⟨[.str (bytesOf t)], b!"Tj"⟩] := by
  apply OpsTo.op (w := b!"Tj") (by decide) (by simp [Operand.Ok])
  have e : bytesOf (c!" (" ++ t ++ c!")Tj") = 32 :: 40 :: (bytesOf t ++ 41 :: b!"Tj") := by
    simp [bytesOf, latin1]
  rw [e]
  refine LexTo.space ?_
  intro rest hr
  rw [List.cons_append, List.append_assoc, List.cons_append, lexFrom_str_open, lexFrom_balanced _ _ _ _ h h1 h2]
  have h2 : LexTo b!"Tj" [.word b!"Tj"] := LexTo.word (by decide) (by decide)
  rw [h2 rest hr]
  rfl

/-- a character map into glyph numbers as the spec sees it -/
def asPair (g : Nat) : Bytes := [UInt8.ofNat (g / 256), UInt8.ofNat (g % 256)]

theorem asHex_ok {g : Nat} (h : g < 65536) {s : Str} (hs : asHex g = .ok s) :
    (∀ c ∈ s, isLatin c = true) ∧ bytesOf s = (asPair g).flatMap escByte := by
  unfold asHex at hs
  split at hs
  · cases hs
  · injection hs with hs
    have val : ∀ n, n < 256 → (Char.ofNat n).toNat = n := by
      have : ∀ k : Fin 256, (Char.ofNat k.val).toNat = k.val := by decide +kernel
      intro n hn; exact this ⟨n, hn⟩
    have e1 : g / 256 % 256 = g / 256 := by omega
    rw [e1] at hs
    have l1 : (Char.ofNat (g / 256)).toNat = g / 256 := val _ (by omega)
    have l2 : (Char.ofNat (g % 256)).toNat = g % 256 := val _ (by omega)
    have hl : ∀ c ∈ [Char.ofNat (g / 256), Char.ofNat (g % 256)], isLatin c = true := by
      intro c hc
      simp only [List.mem_cons, List.not_mem_nil, or_false] at hc
      rcases hc with rfl | rfl
      · simp only [isLatin, l1, decide_eq_true_eq]; omega
      · simp only [isLatin, l2, decide_eq_true_eq]; omega
    subst hs
    constructor
    · intro c hc
      rw [escapeString_eq] at hc
      obtain ⟨d, hd, hc⟩ := List.mem_flatMap.1 hc
      unfold escChar at hc
      split at hc
      · simp only [List.mem_cons, List.not_mem_nil, or_false] at hc
        rcases hc with rfl | rfl
        · decide
        · exact hl _ hd
      · simp only [List.mem_cons, List.not_mem_nil, or_false] at hc
        subst hc; exact hl _ hd
    · rw [bytesOf_escapeString hl]
      simp [bytesOf, latin1, l1, l2, asPair]

theorem encodeText_ok {map : Char → Option Nat} (hm : ∀ c g, map c = some g → g < 65536) : ∀ {t s : Str},
    encodeText map t = .ok s → ∃ gs : List Nat, t.mapM map = some gs ∧ (∀ g ∈ gs, g < 65536) ∧
      (∀ c ∈ s, isLatin c = true) ∧ bytesOf s = (gs.flatMap asPair).flatMap escByte := by
  intro t
  induction t with
  | nil =>
    intro s h
    cases h
    exact ⟨[], by simp, by simp, by simp, rfl⟩
  | cons c t ih =>
    intro s h
    unfold encodeText at h
    cases hc : map c with
    | none => simp [hc] at h
    | some g =>
      simp only [hc] at h
      cases ha : asHex g with
      | error e => simp [ha] at h
      | ok a =>
        simp only [ha] at h
        cases hb : encodeText map t with
        | error e => simp [hb] at h
        | ok b =>
          simp only [hb] at h
          cases h
          obtain ⟨gs, h1, h2, h3, h4⟩ := ih hb
          obtain ⟨h5, h6⟩ := asHex_ok (hm c g hc) ha
          refine ⟨g :: gs, by simp [hc, h1], ?_, ?_, ?_⟩
          · intro x hx
            simp only [List.mem_cons] at hx
            rcases hx with rfl | hx
            · exact hm c _ hc
            · exact h2 x hx
          · intro x hx
            rw [List.mem_append] at hx
            exact hx.elim (h5 x) (h3 x)
          · rw [bytesOf, List.map_append]
            show bytesOf a ++ bytesOf b = _
            rw [h6, h4]
            simp

theorem codes2_pairs (gs : List Nat) (h : ∀ g ∈ gs, g < 65536) : codes2 (gs.flatMap asPair) = some gs := by
  induction gs with
  | nil => rfl
  | cons g gs ih =>
    have := ih fun x hx => h x (by simp [hx])
    have hg := h g (by simp)
    simp only [List.flatMap_cons, asPair, List.cons_append, List.nil_append, codes2] at this ⊢
    rw [this]
    simp only [Option.map_some, UInt8.toNat_ofNat']
    congr 2
    omega

end Verif
