import Verif.Py
/-! Model of the Roman numeral functions of `pdfme/utils.py`. -/
namespace Verif

/-- `one * n` for a string -/
def strMul (s : Str) (n : Nat) : Str := (List.replicate n s).flatten

/-- `_roman_five`, utils.py:308-309. The digits are natural numbers: the caller never passes a
negative one. -/
def romanFive (n : Nat) (one five : Str) : Str :=
  if n < 4 then strMul one n else if n = 4 then one ++ five else five

/-- `_roman_ten`, utils.py:311-313. Note the precedence of the conditional expression:
`A if n < 5 else ((B + C) if n > 5 else five)`. -/
def romanTen (n : Nat) (one five ten : Str) : Str :=
  if n < 5 then romanFive n one five
  else if n > 5 then (if n < 9 then five else []) ++ romanFive (n - 5) one ten
  else five

/-- `int(c)` of one digit character of `str(n)`. -/
def digitVal (c : Char) : Nat := c.toNat - 48

/-- `n[-k]` of a string that is long enough (guarded by `len(n) > k - 1` in the code). -/
def fromEnd (s : Str) (k : Nat) : Char := (s[s.length - k]?).getD '0'

/-- `to_roman`, utils.py:315-337. -/
def toRoman (n : Int) : Except PyErr Str :=
  if ¬ (0 < n ∧ n < 4000) then .error .exception
  else
    let s := intStr n
    let r := if s.length > 0 then romanTen (digitVal (fromEnd s 1)) c!"I" c!"V" c!"X" else []
    let r := if s.length > 1 then romanTen (digitVal (fromEnd s 2)) c!"X" c!"L" c!"C" ++ r else r
    let r := if s.length > 2 then romanTen (digitVal (fromEnd s 3)) c!"C" c!"D" c!"M" ++ r else r
    let r := if s.length > 3 then romanTen (digitVal (fromEnd s 4)) c!"M" [] [] ++ r else r
    .ok r

end Verif
