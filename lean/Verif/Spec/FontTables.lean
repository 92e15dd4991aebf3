import Mathlib.Data.Rat.Defs
/-! # What the tables of a font file say (OpenType) and how a font descriptor says it (ISO 32000-1, 9.8) -/
namespace Verif.Spec

/-- the bits of `fsType` that have a meaning: 1 restricted licence, 2 preview and print, 3 editable, 8 no subsetting, 9 bitmaps only (OpenType, OS/2) -/
def licenceBits : List Nat := [1, 2, 3, 8, 9]

/-- all other bits are 0, as OpenType demands -/
def LicenceOk (fsType : Nat) : Prop := ∀ i, i ∉ licenceBits → fsType.testBit i = false

/-- the whole file must not be embedded: restricted, with no other permission, or bitmaps only -/
def NotEmbeddable (fsType : Nat) : Prop :=
  (fsType.testBit 1 = true ∧ fsType.testBit 2 = false ∧ fsType.testBit 3 = false) ∨ fsType.testBit 9 = true

/-- `r` is `v` units of a font in thousandths of the size (ISO 32000-1, 9.2.4) -/
def Thousandths (unitsPerEm : Nat) (v : Int) (r : Rat) : Prop := r * unitsPerEm = v * 1000

end Verif.Spec
