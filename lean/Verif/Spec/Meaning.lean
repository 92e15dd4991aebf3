import Verif.Spec.PdfObj
import Verif.Model.Parser
/-!
# Specification: which PDF object a Python value stands for

`meaning o = some p` says that the Python value `o` stands for the PDF object `p` (base.py:5-29).
It is `none` for values that have no such reading or are excluded from property C08: strings with a
backslash, a carriage return or characters outside latin-1 (C07 deals with them), raw `bytes` that are
neither a name nor a hexadecimal string, keys that are not made of regular characters, floats whose
`str()` is not a PDF real (exponents, `inf`, `nan`), stream dicts (C05), unsupported types.
Only the constructors of `Obj` are used from the model.
-/
namespace Verif.Spec

/-- every character is latin-1, regular and not `#`: the key can be written as a PDF name as it is -/
def nameChars (s : Str) : Bool :=
  s.all fun c => c.toNat < 256 && isRegular (UInt8.ofNat c.toNat) && c != '#'

/-- latin-1 bytes of a string -/
def latinBytes (s : Str) : Bytes := s.map fun c => UInt8.ofNat c.toNat

def stringChars (s : Str) : Bool := s.all fun c => c.toNat < 256 && c != '\\' && c != '\r'

def meaningBytes : Bytes → Option PObj
  | 47 :: w => if w.all (fun c => isRegular c && c != 35) then some (.name w) else none
  | 60 :: w =>
    if w.getLast? = some 62 ∧ 60 ∉ w.dropLast ∧ 62 ∉ w.dropLast then some (.hex w.dropLast) else none
  | _ => none

mutual
def meaning : Obj → Option PObj
  | .ref i => some (.ref i 0)
  | .bool b => some (.bool b)
  | .int i => some (.int i)
  | .flt r => if isReal (latinBytes r) then some (.real (latinBytes r)) else none
  | .str s => if stringChars s then some (.str (latinBytes s)) else none
  | .bytes b => meaningBytes b
  | .seq l => match meaningList l with
    | some ps => some (.arr ps)
    | none => none
  | .dict items =>
    if items.any (fun p => p.1 = .str c!"__stream__") then none
    else match meaningItems items with
      | some ps => some (.dict ps)
      | none => none
  | .pobj v => meaning v
  | .other => none

def meaningList : List Obj → Option (List PObj)
  | [] => some []
  | o :: l => match meaning o, meaningList l with
    | some p, some ps => some (p :: ps)
    | _, _ => none

def meaningItems : List (Key × Obj) → Option (List (Bytes × PObj))
  | [] => some []
  | (.str k, v) :: l =>
    if nameChars k then match meaning v, meaningItems l with
      | some p, some ps => some ((latinBytes k, p) :: ps)
      | _, _ => none
    else none
  | (.int _, _) :: _ => none
end

end Verif.Spec

namespace Verif.Spec

/-- Does the value stand for a PDF object or, for a stream dict, do its other entries? -/
def readable (o : Obj) : Bool :=
  match o with
  | .dict items => match dget (.str c!"__stream__") items with
    | some _ => (meaningItems (items.filter fun p =>
        p.1 ≠ .str c!"__stream__" ∧ p.1 ≠ .str c!"__skip_filter__")).isSome
    | none => (meaning o).isSome
  | _ => (meaning o).isSome

end Verif.Spec
