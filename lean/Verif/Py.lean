import Lean
/-!
# Python basics used by every module of the model

`str` is `List Char`, `bytes` is `List UInt8`. Python exceptions are values of type `PyErr`.
-/
namespace Verif

/-- Python exceptions, by class, that the modelled code can raise. -/
inductive PyErr
  | typeError | valueError | keyError | indexError | attributeError | unicodeError
  | notImplemented | exception | assertion | zeroDivision | structError | recursion | osError
  deriving DecidableEq, Repr

deriving instance DecidableEq for Except

abbrev Str := List Char
abbrev Bytes := List UInt8

open Lean in
/-- byte-string literal, `b!"abc"` is Python's `b"abc"` -/
macro:max "b!" s:str : term => do
  let xs := s.getString.toUTF8.toList.map fun b => Syntax.mkNumLit (toString b.toNat)
  `(([$[$xs.toArray],*] : List UInt8))

open Lean in
/-- string literal as a list of characters -/
macro:max "c!" s:str : term => do
  let xs := s.getString.toList.map fun c => Syntax.mkCharLit c
  `(([$[$xs.toArray],*] : List Char))

/-- latin-1 code of one character (only meaningful below 256). -/
def latin1 (c : Char) : UInt8 := UInt8.ofNat c.toNat

/-- Is the character inside latin-1? -/
def isLatin (c : Char) : Bool := c.toNat < 256

/-- `s.encode('latin')`: `UnicodeEncodeError` outside of latin-1. -/
def encodeLatin (s : Str) : Except PyErr Bytes :=
  if s.all isLatin then .ok (s.map latin1) else .error .unicodeError

/-- `str(n)` of a non-negative integer. -/
def natStr (n : Nat) : Str := Nat.toDigits 10 n

/-- `str(n)` of an integer. -/
def intStr : Int → Str
  | .ofNat n => natStr n
  | .negSucc n => '-' :: natStr (n + 1)

/-- `s.zfill(w)` for a string of digits. -/
def zfill (w : Nat) (s : Str) : Str := List.replicate (w - s.length) '0' ++ s

/-- `str.isspace` of one ASCII/latin-1 character: the characters removed by `strip()`.
Non-latin-1 space characters are not modelled. -/
def isSpace (c : Char) : Bool :=
  c.toNat == 32 || (9 ≤ c.toNat && c.toNat ≤ 13) || (28 ≤ c.toNat && c.toNat ≤ 31)
    || c.toNat == 0x85 || c.toNat == 0xa0

/-- `s.strip()` -/
def strip (s : Str) : Str :=
  ((s.dropWhile isSpace).reverse.dropWhile isSpace).reverse

/-- `s.split(sep)` for a one-character separator: always at least one piece. -/
def splitOn (sep : Char) : Str → List Str
  | [] => [[]]
  | c :: cs =>
    if c = sep then [] :: splitOn sep cs
    else match splitOn sep cs with
      | [] => [[c]]
      | p :: ps => (c :: p) :: ps

/-- `re.split(',| ', s)` -/
def splitCommaSpace : Str → List Str
  | [] => [[]]
  | c :: cs =>
    if c = ',' ∨ c = ' ' then [] :: splitCommaSpace cs
    else match splitCommaSpace cs with
      | [] => [[c]]
      | p :: ps => (c :: p) :: ps

/-- The digits of an unsigned integer literal; underscores between digits are not modelled
(they are rejected here, Python accepts them). -/
def parseNat (s : Str) : Option Nat :=
  if s ≠ [] ∧ s.all Char.isDigit then some (Nat.ofDigitChars 10 s 0) else none

/-- `int(s)` of a string: surrounding blanks and a sign are accepted. -/
def parseInt (s : Str) : Except PyErr Int :=
  match strip s with
  | '-' :: ds => match parseNat ds with
    | some n => .ok (-(n : Int))
    | none => .error .valueError
  | '+' :: ds => match parseNat ds with
    | some n => .ok n
    | none => .error .valueError
  | ds => match parseNat ds with
    | some n => .ok n
    | none => .error .valueError

end Verif
