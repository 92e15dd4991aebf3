import Verif.Spec.Meaning
import Verif.Spec.DocShown
/-! Specification: which values a document can be given so that its file can be written and read. -/
namespace Verif.Spec

/-- the data of a stream: bytes, or a dict of bytes -/
def streamParts : Obj → Bool
  | .bytes _ => true
  | .dict d => d.all fun p => match p.2 with
    | .bytes _ => true
    | _ => false
  | _ => false

def isFlate : Obj → Bool
  | .bytes b => b = b!"/FlateDecode"
  | _ => false

def flagSet : Option Obj → Bool
  | some (.bool b) => b
  | _ => false

/-- can the data be filtered? Only `FlateDecode` is there (encoders.py:17-44); data that are filtered already are left alone -/
def filterKnown (d : List (Key × Obj)) : Bool :=
  (dget (.str c!"Filter") d).all fun f => isFlate f || flagSet (dget (.str c!"__skip_filter__") d)

/-- a dict that can be written: its entries stand for PDF objects, its stream is made of bytes and its filter is known -/
def dictWritable (d : List (Key × Obj)) : Bool :=
  (meaningItems (d.filter fun p => p.1 ≠ .str c!"__stream__")).isSome &&
  (dget (.str c!"__stream__") d).all streamParts && filterKnown d

/-- the label, target or address of an id, and the title and target of an item of the outline, can be written as a PDF string:
latin-1 without backslash and carriage return (see C07) -/
def idWritable (json : Str → Option (Int × Str × Str)) (id : Str) : Prop :=
  (∀ name, idKind id = .label name ∨ idKind id = .ref name ∨ idKind id = .uri name → stringChars name = true) ∧
  ∀ data level title label, outlineData id = some data → json data = some (level, title, label) → stringChars title = true ∧ stringChars label = true

/-- the name and the font descriptor of a font file can be written -/
def fontWritable (name : Str) (descriptor : List (Key × Obj)) : Prop :=
  nameChars name = true ∧ (meaningItems descriptor).isSome = true ∧ ∀ p ∈ descriptor, p.1 ≠ .str c!"__stream__" ∧ p.1 ≠ .str c!"Filter"

end Verif.Spec
