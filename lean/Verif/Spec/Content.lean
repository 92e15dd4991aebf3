import Verif.Spec.PdfLex
/-! # Specification: content streams as sequences of operators (ISO 32000-1, 7.8.2)

Operands (numbers, names, strings, arrays of these) come before their operator. Numbers stay as
written: two numbers are the same when they are written the same. -/
namespace Verif.Spec

/-- a byte that can occur in a PDF number: `+ - .` and digits -/
def isNumByte (c : UInt8) : Bool := c == 43 || c == 45 || c == 46 || (48 ≤ c && c ≤ 57)

/-- does a word token stand for a number? -/
def isNumber (w : Bytes) : Bool := w ≠ [] && w.all isNumByte

/-- the text of a number -/
def NumText (s : Str) : Prop := s ≠ [] ∧ ∀ c ∈ s, isLatin c = true ∧ isNumByte (latin1 c) = true

/-- the bytes of a stream written as a (latin-1) string -/
def bytesOf (s : Str) : Bytes := s.map latin1

/-- operands of an operator -/
inductive Operand
  | num (b : Bytes)
  | name (b : Bytes)
  | str (b : Bytes)
  | arr (l : List Bytes)   -- array of numbers
  deriving DecidableEq, Repr

/-- one operator with its operands -/
structure Op where
  args : List Operand
  op : Bytes
  deriving DecidableEq, Repr

/-- reading state: finished operands, and the numbers of an open array -/
structure OpState where
  args : List Operand
  arr : Option (List Bytes)
  deriving DecidableEq, Repr

/-- one token -/
def opStep (s : OpState) (t : Tok) : Option (OpState × List Op) :=
  match s.arr, t with
  | none, .word w =>
    if isNumber w then some (⟨s.args ++ [.num w], none⟩, [])
    else some (⟨[], none⟩, [⟨s.args, w⟩])
  | none, .name n => some (⟨s.args ++ [.name n], none⟩, [])
  | none, .str b => some (⟨s.args ++ [.str b], none⟩, [])
  | none, .lbrack => some (⟨s.args, some []⟩, [])
  | some l, .word w => if isNumber w then some (⟨s.args, some (l ++ [w])⟩, []) else none
  | some l, .rbrack => some (⟨s.args ++ [.arr l], none⟩, [])
  | _, _ => none

/-- the operators of a token list; `none` if it is not a sequence of operators -/
def opsFrom (s : OpState) : List Tok → Option (List Op)
  | [] => if s.args = [] ∧ s.arr = none then some [] else none
  | t :: ts => match opStep s t with
    | none => none
    | some (s', out) => (opsFrom s' ts).map fun l => out ++ l

/-- the operators of a content stream -/
def opsOf (b : Bytes) : Option (List Op) := opsFrom ⟨[], none⟩ (lex b)

example : opsOf b!" q 0.5 g [3 1] 0 d /F1 12 Tf (a) Tj Q" =
    some [⟨[], b!"q"⟩, ⟨[.num b!"0.5"], b!"g"⟩, ⟨[.arr [b!"3", b!"1"], .num b!"0"], b!"d"⟩,
      ⟨[.name b!"F1", .num b!"12"], b!"Tf"⟩, ⟨[.str b!"a"], b!"Tj"⟩, ⟨[], b!"Q"⟩] := by
  decide +kernel

end Verif.Spec
