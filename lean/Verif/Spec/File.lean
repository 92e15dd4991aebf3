import Verif.Py
/-!
# Specification: decimal numbers and positions in a PDF file
-/
namespace Verif.Spec

/-- only ASCII digits -/
def isDecimal (b : Bytes) : Bool := !b.isEmpty && b.all fun c => 48 ≤ c && c ≤ 57

/-- value of a string of ASCII digits -/
def decVal (b : Bytes) : Nat := b.foldl (fun a c => 10 * a + (c.toNat - 48)) 0

/-- the bytes `b` are in the file at byte position `off` -/
def At (file : Bytes) (off : Nat) (b : Bytes) : Prop := b <+: file.drop off

end Verif.Spec
