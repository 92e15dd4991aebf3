import Verif.Py
/-! # Specification: ends of lines in literal strings (ISO 32000-1, 7.3.4.2)

"An end-of-line marker appearing within a literal string without a preceding REVERSE SOLIDUS shall be treated
as a byte value of (0Ah), irrespective of whether the end-of-line marker was a CARRIAGE RETURN (0Dh), a LINE
FEED (0Ah), or both." -/
namespace Verif.Spec

/-- `cr` tells that the byte before was a carriage return -/
def eolFrom (cr : Bool) : Bytes → Bytes
  | [] => []
  | c :: r =>
    if c = 13 then 10 :: eolFrom true r
    else if cr = true ∧ c = 10 then eolFrom false r
    else c :: eolFrom false r

/-- the bytes a reader sees for bytes written unescaped in a literal string -/
def eol (b : Bytes) : Bytes := eolFrom false b

example : eol [97, 13, 10, 98, 13, 13, 99, 10] = [97, 10, 98, 10, 10, 99, 10] := by decide

/-- balanced parentheses, `d` of them open; such parentheses need no escaping -/
def balanced : Nat → Bytes → Bool
  | d, [] => d = 0
  | d, c :: r =>
    if c = 40 then balanced (d + 1) r
    else if c = 41 then match d with
      | 0 => false
      | d + 1 => balanced d r
    else balanced d r

example : balanced 0 b!"a(b)(c(d))" = true ∧ balanced 0 b!"1)" = false ∧ balanced 0 b!"(" = false := by decide

/-- big-endian pairs of bytes: the codes of a string shown with a font whose encoding is Identity-H (9.7.5.2);
`none` if a byte is left over -/
def codes2 : Bytes → Option (List Nat)
  | [] => some []
  | [_] => none
  | a :: b :: r => (codes2 r).map fun l => (a.toNat * 256 + b.toNat) :: l

example : codes2 [0, 65, 1, 2] = some [65, 258] := by decide +kernel

end Verif.Spec
