import Verif.Spec.Reader
import Verif.Lemmas.Output
import Verif.Lemmas.Stream
import Verif.Lemmas.Roundtrip
/-! Lemmas for C64: the specification reader opens what `output` writes. -/
namespace Verif
open Spec

/-! ### the lexer, stopped after a part of the input -/

/-- state and tokens after some bytes -/
def lexRun (s : LexState) : Bytes → LexState × List Tok
  | [] => (s, [])
  | c :: cs => ((lexRun (lexStep s c).1 cs).1, (lexStep s c).2 ++ (lexRun (lexStep s c).1 cs).2)

theorem lexFrom_run (s : LexState) (b r : Bytes) :
    lexFrom s (b ++ r) = (lexRun s b).2 ++ lexFrom (lexRun s b).1 r := by
  induction b generalizing s with
  | nil => simp [lexRun]
  | cons c b ih => simp [lexRun, lexFrom_cons, ih]

theorem lexRun_append (s : LexState) (a b : Bytes) :
    lexRun s (a ++ b) = ((lexRun (lexRun s a).1 b).1, (lexRun s a).2 ++ (lexRun (lexRun s a).1 b).2) := by
  induction a generalizing s with
  | nil => simp [lexRun]
  | cons c a ih => simp [lexRun, ih]

/-- words that cannot be part of an object -/
def NotObj (stop : List Bytes) : Prop := ∀ w ∈ stop, ∀ st, shift st (.word w) = none

theorem readUntil_cons (stop : List Bytes) (s : LexState) (st : List Item) (c : UInt8) (cs : Bytes) :
    readUntil stop s st (c :: cs) =
      match stop.find? fun w => s = .word w ∧ isRegular c = false with
      | some w => some (w, st, c :: cs)
      | none => match shiftAll st (lexStep s c).2 with
        | some st' => readUntil stop (lexStep s c).1 st' cs
        | none => none := by
  rw [readUntil]
  rfl

theorem readUntil_run {stop : List Bytes} (hstop : NotObj stop) (b rest : Bytes) (s : LexState)
    (st st' : List Item) (h : shiftAll st (lexRun s b).2 = some st') :
    readUntil stop s st (b ++ rest) = readUntil stop (lexRun s b).1 st' rest := by
  induction b generalizing s st with
  | nil =>
    simp only [lexRun, shiftAll, Option.some.injEq] at h
    subst h
    rfl
  | cons c b ih =>
    simp only [lexRun, shiftAll_append] at h
    simp only [List.cons_append, lexRun]
    rw [readUntil_cons]
    cases h1 : shiftAll st (lexStep s c).2 with
    | none => simp [h1] at h
    | some st1 =>
      simp only [h1, Option.bind_some] at h
      have hf : (stop.find? fun w => decide (s = .word w ∧ isRegular c = false)) = none := by
        rw [List.find?_eq_none]
        intro w hw
        simp only [decide_eq_true_eq, not_and, Bool.not_eq_false]
        rintro rfl
        cases hc : isRegular c with
        | true => rfl
        | false =>
          simp only [lexStep, hc, Bool.false_eq_true, if_false, shiftAll, hstop w hw st] at h1
          simp at h1
      simp only [hf]
      exact ih _ _ h

theorem shiftAll_bad (st : List Item) (t : List Tok) : shiftAll st (t ++ [.bad]) = none := by
  rw [shiftAll_append]
  cases shiftAll st t <;> simp [shiftAll, shift]

/-- what is known of the lexer after bytes that lex on their own -/
theorem lexRun_state {b : Bytes} {t : List Tok} (h : LexTo b t) {st st' : List Item}
    (hs : shiftAll st t = some st') :
    ((lexRun .idle b).1 = .idle ∧ (lexRun .idle b).2 = t) ∨
    (∃ w, (lexRun .idle b).1 = .word w ∧ (lexRun .idle b).2 ++ [.word w] = t) ∨
    (∃ w, (lexRun .idle b).1 = .name w ∧ (lexRun .idle b).2 ++ [.name (unhash w)] = t) := by
  have h0 := h [] trivial
  have h1 := h [41] (by simp; decide)
  rw [lexFrom_run] at h0 h1
  have e41 : lexFrom .idle [41] = [.bad] := by decide
  simp only [lexFrom, lexFlush, List.append_nil] at h0
  cases hst : (lexRun .idle b).1 with
  | idle => simp only [hst, lexFlush, List.append_nil] at h0; exact .inl ⟨rfl, h0⟩
  | word w => simp only [hst, lexFlush] at h0; exact .inr (.inl ⟨w, rfl, h0⟩)
  | name w => simp only [hst, lexFlush] at h0; exact .inr (.inr ⟨w, rfl, h0⟩)
  | comment =>
    simp only [hst, lexFlush, List.append_nil] at h0
    rw [hst, e41, h0] at h1
    have := congrArg List.length h1
    simp [lexFrom, lexStep, lexFlush] at this
  | _ => simp only [hst, lexFlush] at h0; rw [← h0, shiftAll_bad] at hs; simp at hs

/-- bytes that lex on their own, before a separator -/
theorem readUntil_lexTo {stop : List Bytes} (hstop : NotObj stop) {b : Bytes} {t : List Tok}
    (h : LexTo b t) {st st' : List Item} (hs : shiftAll st t = some st') {c : UInt8}
    (hc : isRegular c = false) (cs : Bytes) :
    readUntil stop .idle st (b ++ c :: cs) = readUntil stop .idle st' (c :: cs) := by
  have pending : ∀ (u : Tok) (r : LexState), (∀ w, r ≠ .word w) ∨ (∃ w, r = .word w ∧ u = .word w) →
      lexStep r c = ((idleStep c).1, u :: (idleStep c).2) →
      (lexRun .idle b).1 = r → (lexRun .idle b).2 ++ [u] = t →
      readUntil stop .idle st (b ++ c :: cs) = readUntil stop .idle st' (c :: cs) := by
    intro u r hr hstep hrun ht
    rw [← ht, shiftAll_append] at hs
    cases h1 : shiftAll st (lexRun .idle b).2 with
    | none => simp [h1] at hs
    | some st1 =>
      simp only [h1, Option.bind_some] at hs
      have hu : shift st1 u = some st' := by
        simp only [shiftAll] at hs
        cases h2 : shift st1 u with
        | none => simp [h2] at hs
        | some st2 => simpa [h2] using hs
      rw [readUntil_run hstop b (c :: cs) .idle st st1 h1, hrun]
      rw [readUntil_cons, readUntil_cons]
      have hf : (stop.find? fun w => decide (r = .word w ∧ isRegular c = false)) = none := by
        rw [List.find?_eq_none]
        intro w hw
        simp only [decide_eq_true_eq, not_and]
        intro he
        rcases hr with hr | ⟨w', hr, hu'⟩
        · exact absurd he (hr w)
        · rw [he] at hr
          simp only [LexState.word.injEq] at hr
          subst hr
          rw [hu', hstop w hw] at hu
          simp at hu
      have hf2 : (stop.find? fun w => decide (LexState.idle = .word w ∧ isRegular c = false)) = none := by
        rw [List.find?_eq_none]
        intro w hw
        simp
      simp only [hf, hf2, hstep, shiftAll, hu]
      rfl
  rcases lexRun_state h hs with ⟨h1, h2⟩ | ⟨w, h1, h2⟩ | ⟨w, h1, h2⟩
  · rw [readUntil_run hstop b (c :: cs) .idle st st' (by rw [h2]; exact hs), h1]
  · exact pending (.word w) (.word w) (.inr ⟨w, rfl, rfl⟩) (by simp [lexStep, hc]) h1 h2
  · exact pending (.name (unhash w)) (.name w) (.inl (by simp)) (by simp [lexStep, hc]) h1 h2

/-- bytes that lex on their own and end in `>`: any bytes may follow -/
theorem readUntil_closed {stop : List Bytes} (hstop : NotObj stop) {b : Bytes} {t : List Tok}
    (h : LexTo (b ++ [62]) t) {st st' : List Item} (hs : shiftAll st t = some st') (rest : Bytes) :
    readUntil stop .idle st (b ++ 62 :: rest) = readUntil stop .idle st' rest := by
  have key : (lexRun .idle (b ++ [62])).1 = .idle ∧ (lexRun .idle (b ++ [62])).2 = t := by
    rcases lexRun_state h hs with h1 | ⟨w, h1, h2⟩ | ⟨w, h1, h2⟩
    · exact h1
    all_goals
      exfalso
      rw [lexRun_append] at h1
      simp only [lexRun] at h1
      have e1 : idleStep 62 = (.gt, []) := by decide
      have e2 : isRegular 62 = false := by decide
      cases hx : (lexRun .idle b).1 with
      | str d m acc =>
        rw [hx] at h1
        cases m <;> simp [lexStep, strStep, strPlain, isOct] at h1
      | _ => rw [hx] at h1; simp [lexStep, e1, e2] at h1
  have := readUntil_run hstop (b ++ [62]) rest .idle st st' (by rw [key.2]; exact hs)
  rw [key.1] at this
  simpa using this

theorem lexRun_word {w : Bytes} (acc : Bytes) (hw : ∀ c ∈ w, isRegular c = true) :
    lexRun (.word acc) w = (.word (acc ++ w), []) := by
  induction w generalizing acc with
  | nil => simp [lexRun]
  | cons c w ih =>
    simp only [lexRun, lexStep, hw c (by simp), if_true, List.nil_append]
    rw [ih _ (fun d hd => hw d (by simp [hd]))]
    simp

/-- one of the keywords -/
theorem readUntil_stop {stop : List Bytes} (hstop : NotObj stop) {w : Bytes} (hm : w ∈ stop)
    (hne : w ≠ []) (hw : ∀ c ∈ w, isRegular c = true) (st : List Item) {c : UInt8}
    (hc : isRegular c = false) (cs : Bytes) :
    readUntil stop .idle st (w ++ c :: cs) = some (w, st, c :: cs) := by
  have hrun : lexRun .idle w = (.word w, []) := by
    cases w with
    | nil => exact absurd rfl hne
    | cons a w =>
      simp only [lexRun, lexStep, regular_idle (hw a (by simp)), List.nil_append]
      rw [lexRun_word _ (fun d hd => hw d (by simp [hd]))]
      rfl
  rw [readUntil_run hstop w (c :: cs) .idle st st (by rw [hrun]; rfl), hrun]
  rw [readUntil_cons]
  have : (stop.find? fun v => decide (LexState.word w = .word v ∧ isRegular c = false)) = some w := by
    cases hf : stop.find? fun v => decide (LexState.word w = .word v ∧ isRegular c = false) with
    | none =>
      rw [List.find?_eq_none] at hf
      have := hf w hm
      simp [hc] at this
    | some v =>
      have := List.find?_some hf
      simp only [LexState.word.injEq, decide_eq_true_eq] at this
      rw [this.1]
  simp only [this]

theorem readUntil_white (stop : List Bytes) (st : List Item) {c : UInt8} (h : isWhite c = true)
    (cs : Bytes) : readUntil stop .idle st (c :: cs) = readUntil stop .idle st cs := by
  rw [readUntil_cons]
  have hf : (stop.find? fun w => decide (LexState.idle = .word w ∧ isRegular c = false)) = none := by
    rw [List.find?_eq_none]
    intro w hw
    simp
  simp only [hf]
  simp [lexStep, idleStep, h, shiftAll]

theorem notObj_obj : NotObj [b!"obj"] := by
  intro w hw st
  simp only [List.mem_singleton] at hw
  subst hw
  rfl

theorem notObj_end : NotObj [b!"endobj", b!"stream"] := by
  intro w hw st
  simp only [List.mem_cons, List.not_mem_nil, or_false] at hw
  rcases hw with rfl | rfl <;> rfl

theorem notObj_endstream : NotObj [b!"endstream"] := by
  intro w hw st
  simp only [List.mem_singleton] at hw
  subst hw
  rfl

theorem notObj_endobj : NotObj [b!"endobj"] := by
  intro w hw st
  simp only [List.mem_singleton] at hw
  subst hw
  rfl

theorem notObj_startxref : NotObj [b!"startxref"] := by
  intro w hw st
  simp only [List.mem_singleton] at hw
  subst hw
  rfl

/-! ### indirect objects -/

theorem read_head (k : Nat) (rest : Bytes) :
    readUntil [b!"obj"] .idle [] ((natStr k).map latin1 ++ b!" 0 obj\n" ++ rest)
      = some (b!"obj", [.obj (.int 0), .obj (.int k)], 10 :: rest) := by
  have h1 : LexTo ((natStr k).map latin1) [.word ((natStr k).map latin1)] :=
    LexTo.word (by simp [natStr_ne_nil]) (intStr_regular k)
  have h2 : LexTo ((natStr k).map latin1 ++ 32 :: b!"0")
      ([.word ((natStr k).map latin1)] ++ [.word b!"0"]) :=
    h1.append_space (LexTo.word (by decide) (by decide))
  have h3 : shiftAll [] ([Tok.word ((natStr k).map latin1)] ++ [.word b!"0"])
      = some [.obj (.int 0), .obj (.int k)] := by
    have := shift_int k []
    simp only [intStr] at this
    simp only [List.singleton_append, shiftAll]
    have h : shift [] (Tok.word ((natStr k).map latin1)) = some [.obj (.int k)] := this
    rw [h]
    rfl
  have e : (natStr k).map latin1 ++ b!" 0 obj\n" ++ rest
      = ((natStr k).map latin1 ++ 32 :: b!"0") ++ 32 :: (b!"obj" ++ 10 :: rest) := by
    simp
  rw [e, readUntil_lexTo notObj_obj h2 h3 (by decide), readUntil_white _ _ (by decide),
    readUntil_stop notObj_obj (by simp) (by decide) (by decide) _ (by decide)]

theorem read_plain (k : Nat) {b : Bytes} {t : List Tok} {p : PObj} (hl : LexTo b t)
    (hr : ReadsTo t p) (rest : Bytes) :
    readIndirect ((natStr k).map latin1 ++ b!" 0 obj\n" ++ b ++ b!"\nendobj\n" ++ rest)
      = some ⟨k, 0, p, none⟩ := by
  have e : (natStr k).map latin1 ++ b!" 0 obj\n" ++ b ++ b!"\nendobj\n" ++ rest
      = (natStr k).map latin1 ++ b!" 0 obj\n" ++ (b ++ 10 :: (b!"endobj" ++ 10 :: rest)) := by
    simp
  rw [e, readIndirect, read_head]
  simp only
  rw [readUntil_white _ _ (by decide), readUntil_lexTo notObj_end hl (hr []) (by decide),
    readUntil_white _ _ (by decide),
    readUntil_stop notObj_end (by simp) (by decide) (by decide) _ (by decide)]
  simp

theorem read_stream (k : Nat) {h : Bytes} {t : List Tok} {d : List (Bytes × PObj)} {data : Bytes}
    (hl : LexTo (h ++ [62]) t) (hr : ReadsTo t (.dict d))
    (hlen : Spec.lookup b!"Length" d = some (.int data.length)) (rest : Bytes) :
    readIndirect ((natStr k).map latin1 ++ b!" 0 obj\n" ++
        (h ++ [62] ++ b!"stream\n" ++ data ++ b!"\nendstream") ++ b!"\nendobj\n" ++ rest)
      = some ⟨k, 0, .dict d, some data⟩ := by
  have e : (natStr k).map latin1 ++ b!" 0 obj\n" ++
        (h ++ [62] ++ b!"stream\n" ++ data ++ b!"\nendstream") ++ b!"\nendobj\n" ++ rest
      = (natStr k).map latin1 ++ b!" 0 obj\n" ++ (h ++ 62 :: (b!"stream" ++ 10 :: (data ++
          10 :: (b!"endstream" ++ 10 :: (b!"endobj" ++ 10 :: rest))))) := by
    simp
  rw [e, readIndirect, read_head]
  simp only
  rw [readUntil_white _ _ (by decide), readUntil_closed notObj_end hl (hr []),
    readUntil_stop notObj_end (by simp) (by decide) (by decide) _ (by decide)]
  have hd : readData d (10 :: (data ++
          10 :: (b!"endstream" ++ 10 :: (b!"endobj" ++ 10 :: rest)))) = some data := by
    have hlen' : Spec.lookup b!"Length" d = some (.int (.ofNat data.length)) := hlen
    simp only [readData, hlen', afterEol]
    rw [if_pos (by simp), List.drop_left, List.take_left, readUntil_white _ _ (by decide),
      readUntil_stop notObj_endstream (by simp) (by decide) (by decide) _ (by decide)]
    simp only
    rw [readUntil_white _ _ (by decide),
      readUntil_stop notObj_endobj (by simp) (by decide) (by decide) _ (by decide)]
  simp only [hd]
  rw [if_neg (by decide)]
  rfl

/-! ### dictionaries -/

theorem latin_inj : ∀ (a b : Str), a.all isLatin = true → b.all isLatin = true →
    a.map latin1 = b.map latin1 → a = b := by
  intro a
  induction a with
  | nil => intro b _ _ h; cases b <;> simp_all
  | cons x a ih =>
    intro b ha hb h
    cases b with
    | nil => simp at h
    | cons y b =>
      simp only [List.all_cons, Bool.and_eq_true, List.map_cons, List.cons.injEq] at ha hb h
      rw [latin1_inj ha.1 hb.1 h.1, ih b ha.2 hb.2 h.2]

/-- looking a key up in the dictionary read is looking it up in the dict written -/
theorem lookup_meaning {k : Str} (hk : k.all isLatin = true) : (l : List (Key × Obj)) →
    (ps : List (Bytes × PObj)) → meaningItems l = some ps →
    Spec.lookup (latinBytes k) ps = (dget (.str k) l).bind meaning
  | [], ps, h => by
    simp only [meaningItems, Option.some.injEq] at h
    subst h
    rfl
  | (.int i, v) :: l, ps, h => by simp [meaningItems] at h
  | (.str k', v) :: l, ps, h => by
    simp only [meaningItems] at h
    split at h
    · rename_i hn
      split at h
      · rename_i p ps' hp hps
        simp only [Option.some.injEq] at h
        subst h
        have ih := lookup_meaning hk l ps' hps
        by_cases he : k' = k
        · subst he
          simp [Spec.lookup, dget, hp]
        · have hne : latinBytes k' ≠ latinBytes k := fun h =>
            he (latin_inj _ _ (nameChars_spec hn).1 hk h)
          simp only [Spec.lookup] at ih ⊢
          rw [List.find?_cons_of_neg (by simpa using hne), ih]
          simp [dget, he]
      · simp at h
    · simp at h

theorem meaningItems_dset {k : Str} {v : Obj} {p : PObj} (hk : nameChars k = true)
    (hv : meaning v = some p) : (l : List (Key × Obj)) → (ps : List (Bytes × PObj)) →
    meaningItems l = some ps → ∃ d, meaningItems (dset (.str k) v l) = some d
  | [], ps, h => ⟨[(latinBytes k, p)], by simp [dset, meaningItems, hk, hv]⟩
  | (.int i, v) :: l, ps, h => by simp [meaningItems] at h
  | (.str k', v') :: l, ps, h => by
    simp only [meaningItems] at h
    split at h
    · rename_i hn
      split at h
      · rename_i p' ps' hp hps
        simp only [dset]
        split
        · exact ⟨(latinBytes k, p) :: ps', by simp [meaningItems, hk, hv, hps]⟩
        · obtain ⟨d, hd⟩ := meaningItems_dset hk hv l ps' hps
          exact ⟨(latinBytes k', p') :: d, by simp [meaningItems, hn, hp, hd]⟩
      · simp at h
    · simp at h

theorem dictLoop_ends {es : List Entry} {acc b : Bytes} (h : (dictLoop acc es).1 = .ok (some b)) :
    ∃ b', b = b' ++ [62, 62] := by
  induction es generalizing acc with
  | nil =>
    simp only [dictLoop, Except.ok.injEq, Option.some.injEq] at h
    exact ⟨acc, h.symm⟩
  | cons e es ih =>
    unfold dictLoop at h
    split at h
    · simp at h
    · split at h
      · simp at h
      · simp at h
      · simp at h
      · exact ih h

/-- a dict without stream, as it is written and read -/
theorem dict_closed {flate : Bytes → Bytes} {items : List (Key × Obj)} {ps : List (Bytes × PObj)}
    {b : Bytes} (hn : dget kStream items = none) (hm : meaningItems items = some ps)
    (hb : (parseObj flate (.dict items)).1 = .ok (some b)) :
    ∃ h t, b = h ++ [62] ∧ LexTo (h ++ [62]) t ∧ ReadsTo t (.dict ps) := by
  obtain ⟨c, cs, t, hr, hl, hrd⟩ := objOk_dict hn (items_ok flate items ps hm)
  rw [hb] at hr
  simp only [Except.ok.injEq, Option.some.injEq] at hr
  have hd : (dictLoop b!"<<" (parseVals flate items)).1 = .ok (some b) := by
    simpa [parseObj, hn, parseDict] using hb
  obtain ⟨b', hb'⟩ := dictLoop_ends hd
  refine ⟨b' ++ [62], t, by simp [hb'], ?_, hrd⟩
  have : b' ++ [62] ++ [62] = c :: cs := by rw [← hr, hb']; simp
  rw [this]
  exact hl

/-! ### the cross-reference table and the ends of the file -/

theorem stripPre_append (p b : Bytes) : stripPre p (p ++ b) = some b := by
  induction p with
  | nil => rfl
  | cons c p ih => simp [stripPre, ih]

theorem isDigit_dec {b : Bytes} (h : isDecimal b = true) : ∀ c ∈ b, Spec.isDigit c = true := by
  simp only [isDecimal, Bool.and_eq_true, List.all_eq_true] at h
  intro c hc
  simpa [Spec.isDigit] using h.2 c hc

theorem readNat_digits {ds : Bytes} (h : isDecimal ds = true) {c : UInt8} (hc : Spec.isDigit c = false)
    (rest : Bytes) : readNat (ds ++ c :: rest) = some (decVal ds, c :: rest) := by
  have h1 := isDigit_dec h
  have h2 : (ds ++ c :: rest).takeWhile Spec.isDigit = ds := by
    rw [List.takeWhile_append_of_pos h1]
    simp [hc]
  have h3 : (ds ++ c :: rest).dropWhile Spec.isDigit = c :: rest := by
    rw [List.dropWhile_append_of_pos h1]
    simp [hc]
  have h4 : ds.isEmpty = false := by
    simp only [isDecimal, Bool.and_eq_true, Bool.not_eq_true'] at h
    exact h.1
  simp [readNat, h2, h3, h4]

theorem digit_not_white {c : UInt8} (h : Spec.isDigit c = true) : isWhite c = false := by
  simp only [Spec.isDigit, Bool.and_eq_true, decide_eq_true_eq, UInt8.le_iff_toNat_le] at h
  simp only [isWhite, Bool.or_eq_false_iff, beq_eq_false_iff_ne, ne_eq]
  have h1 : (48 : UInt8).toNat = 48 := rfl
  have h2 : (57 : UInt8).toNat = 57 := rfl
  rw [h1, h2] at h
  refine ⟨⟨⟨⟨⟨?_, ?_⟩, ?_⟩, ?_⟩, ?_⟩, ?_⟩ <;> (rintro rfl; simp at h)

theorem skipWhite_digits {ds : Bytes} (h : isDecimal ds = true) {c : UInt8} (hc : isWhite c = true)
    (rest : Bytes) : skipWhite (c :: (ds ++ rest)) = ds ++ rest := by
  cases ds with
  | nil => simp [isDecimal] at h
  | cons d ds =>
    have := digit_not_white (isDigit_dec h d (by simp))
    simp [skipWhite, hc, this]

theorem readStart_end (pre ds : Bytes) (h : isDecimal ds = true) :
    readStart (pre ++ (b!"\nstartxref\n" ++ ds ++ b!"\n%%EOF")) = some (decVal ds) := by
  have hr : (pre ++ (b!"\nstartxref\n" ++ ds ++ b!"\n%%EOF")).reverse
      = (b!"%%EOF").reverse ++ (10 :: (ds.reverse ++ (10 :: ((b!"startxref").reverse ++
        (10 :: pre.reverse))))) := by
    simp
  have hdr : ∀ c ∈ ds.reverse, Spec.isDigit c = true := by
    intro c hc
    exact isDigit_dec h c (by simpa using hc)
  have hne : ds ≠ [] := by rintro rfl; simp [isDecimal] at h
  have h0 : skipWhite ((b!"%%EOF").reverse ++ (10 :: (ds.reverse ++ (10 :: ((b!"startxref").reverse ++
        (10 :: pre.reverse))))))
      = (b!"%%EOF").reverse ++ (10 :: (ds.reverse ++ (10 :: ((b!"startxref").reverse ++
        (10 :: pre.reverse))))) := rfl
  have h1 : skipWhite (10 :: (ds.reverse ++ (10 :: ((b!"startxref").reverse ++ (10 :: pre.reverse)))))
      = ds.reverse ++ (10 :: ((b!"startxref").reverse ++ (10 :: pre.reverse))) := by
    cases hd : ds.reverse with
    | nil => simp at hd; exact absurd hd hne
    | cons d es =>
      have := digit_not_white (hdr d (by simp [hd]))
      have h10 : isWhite 10 = true := by decide
      simp [skipWhite, this, h10]
  have h2 : (ds.reverse ++ (10 :: ((b!"startxref").reverse ++ (10 :: pre.reverse)))).takeWhile
      Spec.isDigit = ds.reverse := by
    rw [List.takeWhile_append_of_pos hdr]
    have : Spec.isDigit 10 = false := by decide
    simp [this]
  have h3 : (ds.reverse ++ (10 :: ((b!"startxref").reverse ++ (10 :: pre.reverse)))).dropWhile
      Spec.isDigit = 10 :: ((b!"startxref").reverse ++ (10 :: pre.reverse)) := by
    rw [List.dropWhile_append_of_pos hdr]
    have : Spec.isDigit 10 = false := by decide
    simp [this]
  have h4 : skipWhite (10 :: ((b!"startxref").reverse ++ (10 :: pre.reverse)))
      = (b!"startxref").reverse ++ (10 :: pre.reverse) := rfl
  simp only [readStart, hr, h0, stripPre_append, h1, h2, h3, h4]
  simp [hne]

theorem readEntry_used {n : Nat} (h : n < 10 ^ 10) : readEntry (xrefEntry n) = some ⟨n, 0, true⟩ := by
  have hl : ((zfill 10 (natStr n)).map latin1).length = 10 := by
    rw [List.length_map, zfill_length (by omega) h]
  have hd := isDecimal_zfill 10 n
  have hv := decVal_zfill 10 n
  unfold xrefEntry
  generalize (zfill 10 (natStr n)).map latin1 = ds at hl hd hv
  have h1 : (ds ++ b!" 00000 n \n").take 10 = ds := by rw [← hl, List.take_left]
  have h2 : ∀ k, (ds ++ b!" 00000 n \n").drop (10 + k) = (b!" 00000 n \n").drop k := by
    intro k
    rw [← hl, List.drop_append]
    simp
  have h3 : ∀ k, (ds ++ b!" 00000 n \n")[10 + k]? = (b!" 00000 n \n")[k]? := by
    intro k
    rw [List.getElem?_append_right (by omega)]
    congr 1
    omega
  have e1 := h2 1
  have e2 := h2 8
  have e3 := h3 0
  have e4 := h3 6
  have e5 := h3 7
  simp only [Nat.reduceAdd] at e1 e2 e3 e4 e5
  simp only [readEntry, h1, e1, e2, e3, e4, e5, hd, hv]
  rw [if_pos (by simp [hl]; decide)]
  rfl

theorem readEntries_all {flate : Bytes → Bytes} : (l : List PDFObj) → (i count : Nat) →
    count + (allBytes flate i l).length < 10 ^ 10 → (rest : Bytes) →
    readEntries l.length (allXref flate i count l ++ rest)
      = some ((List.range l.length).map (fun k => ⟨count + posOf flate i l k, 0, true⟩), rest)
  | [], _, _, _, rest => by simp [readEntries, allXref]
  | o :: l, i, count, h, rest => by
    simp only [allBytes, List.length_append] at h
    have hx : (xrefEntry count).length = 20 := xrefEntry_length (by omega)
    have ih := readEntries_all (flate := flate) l (i + 1) (count + (objBytes flate i o).length) (by omega) rest
    simp only [allXref, List.append_assoc, List.length_cons, readEntries]
    have h1 : (xrefEntry count ++ (allXref flate (i + 1) (count + (objBytes flate i o).length) l
        ++ rest)).take 20 = xrefEntry count := by
      rw [← hx, List.take_left]
    have h2 : (xrefEntry count ++ (allXref flate (i + 1) (count + (objBytes flate i o).length) l
        ++ rest)).drop 20 = allXref flate (i + 1) (count + (objBytes flate i o).length) l ++ rest := by
      rw [← hx, List.drop_left]
    rw [h1, h2, readEntry_used (by omega), ih]
    simp only [Option.some.injEq, Prod.mk.injEq, and_true]
    rw [List.range_succ_eq_map, List.map_cons, List.map_map]
    simp [posOf, Function.comp_def, Nat.add_assoc]

/-! ### a whole file -/

theorem meaning_trailerId {u : Bytes} (h : 60 ∉ u ∧ 62 ∉ u) : meaning (trailerId u) = some (.hex u) := by
  simp only [trailerId, meaning, meaningBytes, List.cons_append, List.nil_append]
  rw [if_pos]
  · simp
  · simp [h]

theorem meaning_trailer {u1 u2 : Bytes} {s : Base} {ps : List (Bytes × PObj)}
    (h1 : 60 ∉ u1 ∧ 62 ∉ u1) (h2 : 60 ∉ u2 ∧ 62 ∉ u2) (hm : meaningItems s.trailer = some ps) :
    ∃ d, meaningItems (trailerOf u1 u2 s) = some d := by
  obtain ⟨d1, hd1⟩ := meaningItems_dset (k := c!"Size") (v := .int s.count) (p := .int s.count)
    (by decide) rfl s.trailer ps hm
  unfold trailerOf
  split
  · exact ⟨d1, hd1⟩
  · exact meaningItems_dset (k := c!"ID") (p := .arr [.hex u1, .hex u2]) (by decide)
      (by simp [meaning, meaningList, meaning_trailerId h1, meaning_trailerId h2]) _ d1 hd1

theorem file_opens (flate : Bytes → Bytes) (s : Base) (u1 u2 : Bytes) (ps : List (Bytes × PObj))
    (hcount : s.count = s.content.length + 1)
    (hok : (s.output flate u1 u2).err = none)
    (hsmall : (s.output flate u1 u2).written.length < 10 ^ 10)
    (h1 : 60 ∉ u1 ∧ 62 ∉ u1) (h2 : 60 ∉ u2 ∧ 62 ∉ u2)
    (hs : dget kStream s.trailer = none) (hm : meaningItems s.trailer = some ps) :
    ∃ F, openFile (s.output flate u1 u2).written = some F ∧
      F.bytes = (s.output flate u1 u2).written ∧ F.first = 0 ∧
      F.entries = ⟨0, 65535, false⟩ :: (List.range s.content.length).map
        (fun k => ⟨(headerOf s).length + posOf flate 0 s.content k, 0, true⟩) ∧
      meaningItems (trailerOf u1 u2 s) = some F.trailer := by
  obtain ⟨hver, hloop, tr, t3, htr, hw, hb⟩ := output_ok hok
  obtain ⟨d, hd⟩ := meaning_trailer h1 h2 hm
  have hst : dget kStream (trailerOf u1 u2 s) = none := by
    unfold trailerOf
    split
    · rw [dget_dset_ne (by simp [kSize, kStream]), hs]
    · rw [dget_dset_ne (by simp [kID, kStream]), dget_dset_ne (by simp [kSize, kStream]), hs]
  obtain ⟨hh, tt, htb, hlex, hread⟩ := dict_closed hst hd (by rw [htr])
  refine ⟨⟨_, 0, _, d⟩, ?_, rfl, rfl, rfl, hd⟩
  generalize hfile : (s.output flate u1 u2).written = file at hsmall hw ⊢
  have hpre : ∃ r, stripPre b!"%PDF-" file = some r := by
    have e : headerOf s = b!"%PDF-" ++ (s.version ++ c!"\n%%\x129\x129\x129\n").map latin1 := by
      simp only [headerOf, List.map_append, List.append_assoc]
      rfl
    rw [hw, e]
    simp only [List.append_assoc]
    exact ⟨_, stripPre_append _ _⟩
  obtain ⟨r0, hr0⟩ := hpre
  generalize hA : allBytes flate 0 s.content = A at hw
  generalize hH : headerOf s = H at hw ⊢
  generalize hX : allXref flate 0 H.length s.content = X at hw
  have hlen : H.length + (allBytes flate 0 s.content).length < 10 ^ 10 := by
    rw [hA]
    rw [hw] at hsmall
    simp only [List.length_append] at hsmall
    omega
  have hstart : readStart file = some (H.length + A.length + 1) := by
    have := readStart_end (H ++ A ++ (b!"\nxref\n0 " ++ (natStr s.count).map latin1 ++
      b!"\n0000000000 65535 f \n" ++ X ++ b!"trailer\n" ++ tr))
      ((natStr (H.length + A.length + 1)).map latin1) (isDecimal_natStr _)
    rw [decVal_natStr] at this
    rw [← this, hw]
    simp only [List.append_assoc]
  have hdrop : file.drop (H.length + A.length + 1) = b!"xref" ++ (10 :: (b!"0" ++ 32 ::
      ((natStr s.count).map latin1 ++ 10 :: (b!"0000000000 65535 f \n" ++ (X ++ (b!"trailer" ++
      (10 :: (tr ++ (10 :: (b!"startxref" ++ 10 :: ((natStr (H.length + A.length + 1)).map latin1 ++
        b!"\n%%EOF"))))))))))) := by
    rw [hw, List.drop_append, List.drop_eq_nil_of_le (by simp only [List.length_append]; omega)]
    have : H.length + A.length + 1 - (H ++ A).length = 1 := by
      simp only [List.length_append]; omega
    rw [this]
    simp
  simp only [openFile, hr0, hstart, hdrop, stripPre_append]
  rw [skipWhite_digits (by decide) (by decide), readNat_digits (by decide) (by decide)]
  simp only
  rw [skipWhite_digits (isDecimal_natStr _) (by decide), readNat_digits (isDecimal_natStr _) (by decide)]
  simp only [decVal_natStr]
  have hsk : ∀ r, skipWhite (10 :: (b!"0000000000 65535 f \n" ++ r)) = b!"0000000000 65535 f \n" ++ r :=
    fun r => rfl
  rw [hsk, hcount]
  have hent := readEntries_all (flate := flate) s.content 0 H.length hlen
    (b!"trailer" ++ (10 :: (tr ++ (10 :: (b!"startxref" ++ 10 ::
      ((natStr (H.length + A.length + 1)).map latin1 ++ b!"\n%%EOF"))))))
  rw [hX] at hent
  have hall : ∀ r, readEntries (s.content.length + 1) (b!"0000000000 65535 f \n" ++ r)
      = match readEntries s.content.length r with
        | some (es, r) => some ((⟨0, 65535, false⟩ : XEntry) :: es, r)
        | none => none := by
    intro r
    have e1 : (b!"0000000000 65535 f \n" ++ r).take 20 = b!"0000000000 65535 f \n" := rfl
    have e2 : (b!"0000000000 65535 f \n" ++ r).drop 20 = r := rfl
    have e3 : readEntry b!"0000000000 65535 f \n" = some ⟨0, 65535, false⟩ := by decide
    simp only [readEntries, e1, e2, e3]
    cases readEntries s.content.length r <;> rfl
  rw [hall, hent]
  simp only
  have hsk2 : ∀ r, skipWhite (b!"trailer" ++ r) = b!"trailer" ++ r := fun r => rfl
  rw [hsk2, stripPre_append]
  simp only
  rw [htb, readUntil_white _ _ (by decide), readUntil_lexTo notObj_startxref hlex (hread []) (by decide),
    readUntil_white _ _ (by decide),
    readUntil_stop notObj_startxref (by simp) (by decide) (by decide) _ (by decide)]
  simp [decVal, hfile]

/-- the bytes at the position of an object -/
theorem file_at (flate : Bytes → Bytes) (s : Base) (u1 u2 : Bytes)
    (hok : (s.output flate u1 u2).err = none) (k : Nat) (hk : k < s.content.length) :
    ∃ body rest, (parseObj flate s.content[k].value).1 = .ok (some body) ∧
      (s.output flate u1 u2).written.drop ((headerOf s).length + posOf flate 0 s.content k)
        = (natStr (k + 1)).map latin1 ++ b!" 0 obj\n" ++ body ++ b!"\nendobj\n" ++ rest := by
  obtain ⟨hver, hloop, tr, t3, htr, hw, hb⟩ := output_ok hok
  obtain ⟨_, _, _, _, hbodies⟩ := outputLoop_ok hloop
  obtain ⟨body, hbody⟩ := hbodies s.content[k] (List.getElem_mem hk)
  obtain ⟨r, hr⟩ := allBytes_at (flate := flate) (i := 0) (l := s.content) (k := k) hk
  have hob : objBytes flate (0 + k) s.content[k]
      = (natStr (k + 1)).map latin1 ++ b!" 0 obj\n" ++ body ++ b!"\nendobj\n" := by
    simp [objBytes, hbody, objHead]
  rw [hob] at hr
  have hpos := posOf_le flate 0 s.content k
  rw [hw, List.append_assoc (headerOf s), List.drop_append, List.drop_eq_nil_of_le (by omega),
    Nat.add_sub_cancel_left, List.nil_append, List.drop_append_of_le_length hpos, ← hr]
  exact ⟨body, _, hbody, by rw [List.append_assoc]⟩

theorem file_object (flate : Bytes → Bytes) (s : Base) (F : PdfFile) (u1 u2 : Bytes)
    (hb : F.bytes = (s.output flate u1 u2).written) (hf : F.first = 0)
    (he : F.entries = ⟨0, 65535, false⟩ :: (List.range s.content.length).map
        (fun k => ⟨(headerOf s).length + posOf flate 0 s.content k, 0, true⟩))
    (k : Nat) (hk : k < s.content.length) (p : PObj) (data : Option Bytes)
    (hr : readIndirect ((s.output flate u1 u2).written.drop
      ((headerOf s).length + posOf flate 0 s.content k)) = some ⟨((k + 1 : Nat) : Int), 0, p, data⟩) :
    F.object (k + 1) = some (p, data) := by
  simp only [PdfFile.object, hf, he]
  rw [if_neg (by omega)]
  simp only [Nat.sub_zero, List.getElem?_cons_succ, List.getElem?_map]
  rw [List.getElem?_range hk]
  simp only [Option.map_some]
  rw [if_neg (by simp), hb, hr]
  simp

end Verif
