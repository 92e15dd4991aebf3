import Verif.Py
/-! Specification: hexadecimal digits. -/
namespace Verif.Spec

/-- the hexadecimal digits and their values -/
def hexTable : List (Char × Nat) :=
  [('0', 0), ('1', 1), ('2', 2), ('3', 3), ('4', 4), ('5', 5), ('6', 6), ('7', 7), ('8', 8), ('9', 9),
   ('a', 10), ('b', 11), ('c', 12), ('d', 13), ('e', 14), ('f', 15),
   ('A', 10), ('B', 11), ('C', 12), ('D', 13), ('E', 14), ('F', 15)]

/-- a string of hexadecimal digits with these values -/
inductive HexString : Str → List Nat → Prop
  | nil : HexString [] []
  | cons {c v s vs} : (c, v) ∈ hexTable → HexString s vs → HexString (c :: s) (v :: vs)

end Verif.Spec
