import Verif.Model.Fonts
import Mathlib.Algebra.Order.Floor.Ring
import Mathlib.Data.Rat.Floor
/-! Model of `_get_font_descriptor` (fonts.py:268-335): what is taken from the tables of a font file.

Simplifications: numbers are exact (floats in the code); `toStr` of a name record gives its text (fontTools). -/
namespace Verif

/-- a record of the table `name`: its `nameID` and text -/
structure NameRec where
  id : Nat
  text : Str

/-- the table `head` -/
structure HeadTable where
  unitsPerEm : Nat
  xMin : Int
  yMin : Int
  xMax : Int
  yMax : Int

/-- the table `hhea` -/
structure HheaTable where
  ascent : Int
  descent : Int

/-- the table `OS/2` -/
structure OS2Table where
  version : Nat
  usWeightClass : Nat
  fsType : Nat
  sTypoAscender : Int
  sTypoDescender : Int
  sCapHeight : Int

/-- the tables that are read; `hhea` and `OS/2` may be missing -/
structure FontTables where
  names : List NameRec
  head : HeadTable
  hhea : Option HheaTable
  os2 : Option OS2Table
  italicAngle : Rat
  isFixedPitch : Bool

/-- the font descriptor, fonts.py:325-335 -/
structure FontDesc where
  name : Str
  flags : Nat
  bbox : List Rat
  italicAngle : Rat
  ascent : Rat
  descent : Rat
  capHeight : Rat
  stemV : Int
  deriving DecidableEq

/-- the licence check, fonts.py:300-302 -/
def licenceRefused (fsType : Nat) : Bool := fsType == 0x0002 || (fsType &&& 0x0300) != 0

/-- fonts.py:315-323 -/
def fontFlags (italic : Rat) (weight : Nat) (fixed : Bool) : Nat :=
  let flags := 4
  let flags := if italic ≠ 0 then flags ||| 64 else flags
  let flags := if weight ≥ 600 then flags ||| 262144 else flags
  if fixed then flags ||| 1 else flags

/-- fonts.py:278-335. Without a table `OS/2` the attribute `ascent` is read, which the font does not have (fonts.py:310). -/
def FontTables.describe (t : FontTables) : Except PyErr FontDesc :=
  match t.names[6]? with
  | none => .error .indexError
  | some name =>
    if t.head.unitsPerEm = 0 then .error .zeroDivision
    else
      let scale : Rat := 1000 / t.head.unitsPerEm
      match t.os2 with
      | none => .error .attributeError
      | some os2 =>
        if licenceRefused os2.fsType then .error .exception
        else
          let ascent := match t.hhea with
            | some h => h.ascent * scale
            | none => os2.sTypoAscender * scale
          let descent := match t.hhea with
            | some h => h.descent * scale
            | none => os2.sTypoDescender * scale
          let capHeight := if os2.version > 1 then os2.sCapHeight * scale else ascent
          let stemV := 50 + ⌊((os2.usWeightClass : Rat) / 65) ^ 2⌋
          .ok ⟨name.text, fontFlags t.italicAngle os2.usWeightClass t.isFixedPitch,
            [t.head.xMin * scale, t.head.yMin * scale, t.head.xMax * scale, t.head.yMax * scale], t.italicAngle, ascent, descent, capHeight, stemV⟩

/-- the entries after `FontName`, fonts.py:328-334, as `TTFile.descriptor` has them; `num` is how a float is written -/
def FontDesc.entries (num : Rat → Obj) (d : FontDesc) : List (Key × Obj) :=
  [(.str c!"Flags", .int d.flags), (.str c!"FontBBox", .seq (d.bbox.map num)), (.str c!"ItalicAngle", num d.italicAngle), (.str c!"Ascent", num d.ascent),
    (.str c!"Descent", num d.descent), (.str c!"CapHeight", num d.capHeight), (.str c!"StemV", .int d.stemV)]

/-- the descriptor as it is added to a document, fonts.py:325-349 -/
def FontDesc.dict (num : Rat → Obj) (d : FontDesc) : List (Key × Obj) :=
  (kType, .bytes b!"/FontDescriptor") :: (.str c!"FontName", nameBytes d.name) :: d.entries num

end Verif
