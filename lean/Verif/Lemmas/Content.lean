import Verif.Spec.Content
import Verif.Lemmas.Lex
/-! Lemmas to read content streams written piece by piece. -/
namespace Verif
open Spec

/-- `s` reads as the complete operators `l` in front of anything separated from it. -/
def OpsTo (s : Str) (l : List Op) : Prop :=
  ∃ t, LexTo (bytesOf s) t ∧ ∀ ts, opsFrom ⟨[], none⟩ (t ++ ts) = (opsFrom ⟨[], none⟩ ts).map (l ++ ·)

theorem OpsTo.nil : OpsTo [] [] := ⟨[], LexTo.nil, by intro ts; simp⟩

theorem OpsTo.ops {s : Str} {l : List Op} (h : OpsTo s l) : opsOf (bytesOf s) = some l := by
  obtain ⟨t, h1, h2⟩ := h
  rw [opsOf, h1.lex]
  have := h2 []
  simpa [opsFrom] using this

/-- the two pieces are separated when the second one starts with a blank (or is empty) -/
theorem OpsTo.append {a b : Str} {l m : List Op} (ha : OpsTo a l) (hb : OpsTo b m)
    (hs : Sep (bytesOf b)) : OpsTo (a ++ b) (l ++ m) := by
  obtain ⟨t, h1, h2⟩ := ha
  obtain ⟨u, h3, h4⟩ := hb
  refine ⟨t ++ u, ?_, ?_⟩
  · rw [bytesOf, List.map_append]
    refine h1.append h3 ?_
    intro rest hr
    cases b with
    | nil => simpa using hr
    | cons c b => exact hs
  · intro ts
    rw [List.append_assoc, h2, h4]
    simp [Option.map_map, Function.comp_def]

/-- tokens of the operands of an operator -/
def operandToks : Operand → List Tok
  | .num b => [.word b]
  | .name b => [.name b]
  | .str b => [.str b]
  | .arr l => .lbrack :: l.map Tok.word ++ [.rbrack]

/-- numbers are numbers -/
def Spec.Operand.Ok : Operand → Prop
  | .num b => isNumber b = true
  | .arr l => ∀ b ∈ l, isNumber b = true
  | _ => True

theorem opsFrom_arr {args : List Operand} : ∀ (l acc : List Bytes), (∀ b ∈ l, isNumber b = true) →
    ∀ ts, opsFrom ⟨args, some acc⟩ (l.map Tok.word ++ .rbrack :: ts) =
      opsFrom ⟨args ++ [.arr (acc ++ l)], none⟩ ts := by
  intro l
  induction l with
  | nil => intro acc _ ts; simp [opsFrom, opStep]
  | cons b l ih =>
    intro acc h ts
    have hb := h b (by simp)
    simp only [List.map_cons, List.cons_append, opsFrom, opStep, hb, if_true]
    rw [ih _ fun b hb => h b (by simp [hb])]
    simp

theorem opsFrom_operands : ∀ (args acc : List Operand), (∀ a ∈ args, a.Ok) → ∀ ts,
    opsFrom ⟨acc, none⟩ (args.flatMap operandToks ++ ts) = opsFrom ⟨acc ++ args, none⟩ ts := by
  intro args
  induction args with
  | nil => intro acc _ ts; simp
  | cons a args ih =>
    intro acc h ts
    have ha := h a (by simp)
    have ih' := fun acc => ih acc fun a ha => h a (by simp [ha])
    have e : acc ++ a :: args = (acc ++ [a]) ++ args := by simp
    rw [e, ← ih', List.flatMap_cons, List.append_assoc]
    generalize args.flatMap operandToks ++ ts = us
    cases a with
    | num b =>
      simp only [Operand.Ok] at ha
      simp [operandToks, opsFrom, opStep, ha]
    | name b => simp [operandToks, opsFrom, opStep]
    | str b => simp [operandToks, opsFrom, opStep]
    | arr l =>
      simp only [Operand.Ok] at ha
      simp only [operandToks, List.cons_append, List.append_assoc]
      simp only [opsFrom, opStep, List.nil_append]
      rw [opsFrom_arr l [] ha us]
      simp

/-- one operator from its tokens -/
theorem OpsTo.op {s : Str} {args : List Operand} {w : Bytes} (hw : isNumber w = false)
    (ha : ∀ a ∈ args, a.Ok) (h : LexTo (bytesOf s) (args.flatMap operandToks ++ [.word w])) :
    OpsTo s [⟨args, w⟩] := by
  refine ⟨_, h, ?_⟩
  intro ts
  rw [List.append_assoc, opsFrom_operands args [] ha]
  simp [opsFrom, opStep, hw]

theorem isNumByte_regular : ∀ c : UInt8, isNumByte c = true → isRegular c = true := by
  intro c
  have : ∀ n : Fin 256, isNumByte (UInt8.ofNat n.val) = true → isRegular (UInt8.ofNat n.val) = true := by
    decide +kernel
  have h := this ⟨c.toNat, c.toNat_lt⟩
  simpa using h

theorem Spec.NumText.isNumber {s : Str} (h : NumText s) : Spec.isNumber (bytesOf s) = true := by
  simp only [Spec.isNumber, bytesOf, Bool.and_eq_true, decide_eq_true_eq, List.all_eq_true,
    List.mem_map, forall_exists_index, and_imp, forall_apply_eq_imp_iff₂, ne_eq, List.map_eq_nil_iff]
  exact ⟨h.1, fun c hc => (h.2 c hc).2⟩

theorem Spec.NumText.lexTo {s : Str} (h : NumText s) : LexTo (bytesOf s) [.word (bytesOf s)] := by
  apply LexTo.word
  · simpa [bytesOf] using h.1
  · intro c hc
    simp only [bytesOf, List.mem_map] at hc
    obtain ⟨d, hd, rfl⟩ := hc
    exact isNumByte_regular _ (h.2 d hd).2

/-- append after a blank, on strings -/
theorem lexTo_append_space {a b : Str} {t u : List Tok} (ha : LexTo (bytesOf a) t)
    (hb : LexTo (bytesOf b) u) : LexTo (bytesOf (a ++ ' ' :: b)) (t ++ u) := by
  rw [bytesOf, List.map_append]
  exact ha.append_space hb

theorem lexTo_space {b : Str} {u : List Tok} (hb : LexTo (bytesOf b) u) :
    LexTo (bytesOf (' ' :: b)) u := hb.space

theorem lexTo_word (w : Str) (h : w ≠ [] ∧ ∀ c ∈ w, isRegular (latin1 c) = true) :
    LexTo (bytesOf w) [.word (bytesOf w)] := by
  apply LexTo.word
  · simpa [bytesOf] using h.1
  · intro c hc
    simp only [bytesOf, List.mem_map] at hc
    obtain ⟨d, hd, rfl⟩ := hc
    exact h.2 d hd

/-- numbers separated by blanks and then an operator -/
def numsOp : List Str → Str → Str
  | [], w => w
  | a :: l, w => a ++ ' ' :: numsOp l w

theorem numsOp_ops {l : List Str} {w : Str} (hl : ∀ s ∈ l, NumText s)
    (hw : w ≠ [] ∧ ∀ c ∈ w, isRegular (latin1 c) = true) (hn : isNumber (bytesOf w) = false) :
    OpsTo (numsOp l w) [⟨l.map fun s => .num (bytesOf s), bytesOf w⟩] := by
  apply OpsTo.op hn
  · intro a ha
    obtain ⟨s, hs, rfl⟩ := List.mem_map.1 ha
    exact (hl s hs).isNumber
  · induction l with
    | nil => exact lexTo_word w hw
    | cons a l ih =>
      simp only [numsOp, List.map_cons, List.flatMap_cons, operandToks, List.append_assoc]
      exact lexTo_append_space (hl a (by simp)).lexTo (ih fun s hs => hl s (by simp [hs]))

theorem OpsTo.space {s : Str} {l : List Op} (h : OpsTo s l) : OpsTo (' ' :: s) l := by
  obtain ⟨t, h1, h2⟩ := h
  exact ⟨t, lexTo_space h1, h2⟩

end Verif
