import Verif.Py
/-! # Specification: widths and characters of an embedded font (ISO 32000-1, 9.7.4.3 and 9.10.3)

The array `W` of a CIDFont and the character map `ToUnicode`, as a reader of the document understands them. -/
namespace Verif.Spec

/-! ### The array `W` -/

/-- an element of the array: a number or an array -/
inductive WElem (α : Type)
  | int (n : Nat)
  | arr (l : List α)

/-- `c [w1 … wn]`: the glyphs `c`, `c + 1`, … have these widths. (The form `first last w` is not used here.) -/
def readW {α : Type} : List (WElem α) → Option (List (Nat × α))
  | [] => some []
  | .int c :: .arr ws :: rest => (readW rest).map fun r => (ws.zipIdx.map fun w => (c + w.2, w.1)) ++ r
  | _ => none

/-! ### The character map -/

/-- the value of a hexadecimal digit -/
def hexCharVal (c : Char) : Option Nat :=
  if '0' ≤ c ∧ c ≤ '9' then some (c.toNat - 48)
  else if 'A' ≤ c ∧ c ≤ 'F' then some (c.toNat - 55)
  else if 'a' ≤ c ∧ c ≤ 'f' then some (c.toNat - 87)
  else none

/-- the value of hexadecimal digits after `acc` -/
def hexNum (acc : Nat) : Str → Option Nat
  | [] => some acc
  | c :: l => (hexCharVal c).bind fun d => hexNum (16 * acc + d) l

/-- the digits between `<` and `>` -/
def inAngles : Str → Option Str
  | '<' :: l => match l.reverse with
    | '>' :: r => some r.reverse
    | _ => none
  | _ => none

/-- a code of two bytes -/
def codeOf (s : Str) : Option Nat := (inAngles s).bind fun d => if d.length = 4 then hexNum 0 d else none

/-- a character in UTF-16BE: one unit that is not a surrogate, or a surrogate pair -/
def charOf (s : Str) : Option Nat := (inAngles s).bind fun d =>
  if d.length = 4 then (hexNum 0 d).bind fun v => if 0xD800 ≤ v ∧ v < 0xE000 then none else some v
  else if d.length = 8 then (hexNum 0 (d.take 4)).bind fun a => (hexNum 0 (d.drop 4)).bind fun b =>
    if 0xD800 ≤ a ∧ a < 0xDC00 ∧ 0xDC00 ≤ b ∧ b < 0xE000 then some (0x10000 + (a - 0xD800) * 0x400 + (b - 0xDC00)) else none
  else none

/-- a line of a `bfchar` block: a code and its character -/
def bfLine (s : Str) : Option (Nat × Nat) :=
  match splitOn ' ' s with
  | [a, b] => (codeOf a).bind fun c => (charOf b).map fun u => (c, u)
  | _ => none

/-- the number of entries announced by a line `n beginbfchar`, `none` for other lines -/
def beginBf (s : Str) : Option Nat :=
  match splitOn ' ' s with
  | [n, k] => if k = c!"beginbfchar" then (parseInt n).toOption.map Int.toNat else none
  | _ => none

/-- the entries of the blocks; the state is the number of entries still to come in the block. A block has at most 100 of them. -/
def readBf : Option Nat → List Str → Option (List (Nat × Nat))
  | none, [] => some []
  | some _, [] => none
  | none, l :: rest => match beginBf l with
    | none => readBf none rest
    | some n => if n ≤ 100 then readBf (some n) rest else none
  | some 0, l :: rest => if l = c!"endbfchar" then readBf none rest else none
  | some (k + 1), l :: rest => (bfLine l).bind fun e => (readBf (some k) rest).map (e :: ·)

/-- the codes with their characters of a character map; blank lines and the blanks around a line mean nothing -/
def readCMap (s : Str) : Option (List (Nat × Nat)) :=
  readBf none (((splitOn '\n' s).map strip).filter fun l => l ≠ [])

end Verif.Spec
