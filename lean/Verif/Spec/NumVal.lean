import Verif.Spec.File
import Mathlib.Data.Rat.Defs
/-! # Specification: the value of a number in a content stream (ISO 32000-1, 7.3.3) -/
namespace Verif.Spec

/-- digits, and after a point more digits (one of both may be missing) -/
def decNum (b : Bytes) : Option Rat :=
  let i := b.takeWhile (· ≠ 46)
  match b.dropWhile (· ≠ 46) with
  | [] => if isDecimal i then some (decVal i : Rat) else none
  | _ :: f => if (i ++ f ≠ []) ∧ (i ++ f).all (fun c => 48 ≤ c && c ≤ 57) = true then
      some ((decVal (i ++ f) : Rat) / (10 ^ f.length : Nat)) else none

/-- the value of a number -/
def numVal : Bytes → Option Rat
  | 45 :: b => (decNum b).map fun x => -x
  | 43 :: b => decNum b
  | b => decNum b

/-- the sum of some numbers -/
def numSum (l : List Bytes) : Option Rat := (l.mapM numVal).map List.sum

end Verif.Spec
