import Verif.Py
/-!
# Specification: the PDF lexical conventions (ISO 32000-1, 7.2 and 7.3)

A byte-at-a-time lexer, written from the PDF standard and independent of the model.
It is used both for objects of the file body and for content streams.
-/
namespace Verif.Spec

/-- white-space characters, Table 1 of the standard -/
def isWhite (c : UInt8) : Bool :=
  c == 0 || c == 9 || c == 10 || c == 12 || c == 13 || c == 32

/-- delimiter characters, Table 2 of the standard: `( ) < > [ ] { } / %` -/
def isDelim (c : UInt8) : Bool :=
  c == 40 || c == 41 || c == 60 || c == 62 || c == 91 || c == 93 || c == 123 || c == 125
    || c == 47 || c == 37

/-- regular characters: all others -/
def isRegular (c : UInt8) : Bool := !isWhite c && !isDelim c

inductive Tok
  | word (b : Bytes)   -- number, keyword or operator, as written
  | name (b : Bytes)   -- `/name`, decoded
  | str (b : Bytes)    -- literal string, decoded
  | hex (b : Bytes)    -- hexadecimal string, as written
  | lbrack | rbrack | dictOpen | dictClose | lbrace | rbrace
  | bad                -- lexical error
  deriving DecidableEq, Repr

/-- where we are inside of a literal string -/
inductive StrMode
  | plain
  | esc                  -- after a backslash
  | oct1 (d : UInt8)     -- after a backslash and one octal digit
  | oct2 (d : UInt8)     -- after a backslash and two octal digits
  | cr                   -- after a bare CR, which stands for LF (a following LF belongs to it)
  | escCr                -- after backslash CR, a line continuation (a following LF belongs to it)
  deriving DecidableEq, Repr

inductive LexState
  | idle
  | word (acc : Bytes)
  | name (acc : Bytes)
  | str (depth : Nat) (mode : StrMode) (acc : Bytes)
  | lt | gt
  | hex (acc : Bytes)
  | comment
  deriving DecidableEq, Repr

def hexVal (c : UInt8) : Option UInt8 :=
  if 48 ≤ c ∧ c ≤ 57 then some (c - 48)
  else if 65 ≤ c ∧ c ≤ 70 then some (c - 55)
  else if 97 ≤ c ∧ c ≤ 102 then some (c - 87)
  else none

/-- `#hh` sequences in names (7.3.5) -/
def unhash : Bytes → Bytes
  | 35 :: a :: b :: rest => match hexVal a, hexVal b with
    | some x, some y => (16 * x + y) :: unhash rest
    | _, _ => 35 :: unhash (a :: b :: rest)
  | c :: rest => c :: unhash rest
  | [] => []

def isOct (c : UInt8) : Bool := 48 ≤ c && c ≤ 55

/-- one byte in plain mode of a literal string of nesting depth `d` (0 = outermost) -/
def strPlain (d : Nat) (acc : Bytes) (c : UInt8) : LexState × List Tok :=
  if c = 92 then (.str d .esc acc, [])
  else if c = 40 then (.str (d + 1) .plain (acc ++ [c]), [])
  else if c = 41 then match d with
    | 0 => (.idle, [.str acc])
    | d + 1 => (.str d .plain (acc ++ [c]), [])
  else if c = 13 then (.str d .cr (acc ++ [10]), [])
  else (.str d .plain (acc ++ [c]), [])

/-- one byte inside of a literal string (7.3.4.2) -/
def strStep (d : Nat) (mode : StrMode) (acc : Bytes) (c : UInt8) : LexState × List Tok :=
  match mode with
  | .plain => strPlain d acc c
  | .cr => if c = 10 then (.str d .plain acc, []) else strPlain d acc c
  | .escCr => if c = 10 then (.str d .plain acc, []) else strPlain d acc c
  | .esc =>
    if c = 110 then (.str d .plain (acc ++ [10]), [])        -- \n
    else if c = 114 then (.str d .plain (acc ++ [13]), [])   -- \r
    else if c = 116 then (.str d .plain (acc ++ [9]), [])    -- \t
    else if c = 98 then (.str d .plain (acc ++ [8]), [])     -- \b
    else if c = 102 then (.str d .plain (acc ++ [12]), [])   -- \f
    else if c = 10 then (.str d .plain acc, [])              -- line continuation
    else if c = 13 then (.str d .escCr acc, [])
    else if isOct c then (.str d (.oct1 (c - 48)) acc, [])
    else (.str d .plain (acc ++ [c]), [])                    -- \( \) \\ and unknown escapes
  | .oct1 v =>
    if isOct c then (.str d (.oct2 (8 * v + (c - 48))) acc, []) else strPlain d (acc ++ [v]) c
  | .oct2 v =>
    if isOct c then (.str d .plain (acc ++ [8 * v + (c - 48)]), [])
    else strPlain d (acc ++ [v]) c

/-- one byte between tokens -/
def idleStep (c : UInt8) : LexState × List Tok :=
  if isWhite c then (.idle, [])
  else if c = 40 then (.str 0 .plain [], [])
  else if c = 41 then (.idle, [.bad])
  else if c = 60 then (.lt, [])
  else if c = 62 then (.gt, [])
  else if c = 91 then (.idle, [.lbrack])
  else if c = 93 then (.idle, [.rbrack])
  else if c = 123 then (.idle, [.lbrace])
  else if c = 125 then (.idle, [.rbrace])
  else if c = 47 then (.name [], [])
  else if c = 37 then (.comment, [])
  else (.word [c], [])

def lexStep (s : LexState) (c : UInt8) : LexState × List Tok :=
  match s with
  | .idle => idleStep c
  | .word acc =>
    if isRegular c then (.word (acc ++ [c]), [])
    else let r := idleStep c; (r.1, .word acc :: r.2)
  | .name acc =>
    if isRegular c then (.name (acc ++ [c]), [])
    else let r := idleStep c; (r.1, .name (unhash acc) :: r.2)
  | .str d m acc => strStep d m acc c
  | .lt => if c = 60 then (.idle, [.dictOpen])
    else if c = 62 then (.idle, [.hex []])
    else (.hex [c], [])
  | .gt => if c = 62 then (.idle, [.dictClose]) else let r := idleStep c; (r.1, .bad :: r.2)
  | .hex acc => if c = 62 then (.idle, [.hex acc]) else (.hex (acc ++ [c]), [])
  | .comment => if c = 10 ∨ c = 13 then (.idle, []) else (.comment, [])

/-- end of input -/
def lexFlush : LexState → List Tok
  | .idle => []
  | .word acc => [.word acc]
  | .name acc => [.name (unhash acc)]
  | .comment => []
  | _ => [.bad]

/-- the tokens of the rest of the input, starting in state `s` -/
def lexFrom (s : LexState) : Bytes → List Tok
  | [] => lexFlush s
  | c :: cs => (lexStep s c).2 ++ lexFrom (lexStep s c).1 cs

/-- the tokens of a byte string -/
def lex (b : Bytes) : List Tok := lexFrom .idle b

-- sanity checks of the specification itself
example : lex b!"<</A 12/B[(x\\(y\\)(z)) <ab>] >>" =
    [.dictOpen, .name b!"A", .word b!"12", .name b!"B", .lbrack, .str b!"x(y)(z)", .hex b!"ab",
      .rbrack, .dictClose] := by decide +kernel
example : lex b!"BT /F1 12.5 Tf (a\\\nb\\101\\5)Tj % c\nET" =
    [.word b!"BT", .name b!"F1", .word b!"12.5", .word b!"Tf", .str [97, 98, 65, 5], .word b!"Tj",
      .word b!"ET"] := by decide +kernel

end Verif.Spec
