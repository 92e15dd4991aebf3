import Verif.Model.PdfText
/-! # Specification: annotations and destinations of placed paragraphs

A paragraph reports rectangles for its ids, relative to its position. The kind of an id is in its prefix. -/
namespace Verif.Spec

/-- what an id stands for -/
inductive IdKind
  | label (name : Str)
  | ref (name : Str)
  | uri (link : Str)
  | other
  deriving DecidableEq

def idKind (id : Str) : IdKind :=
  if c!"$label:".isPrefixOf id then .label (id.drop 7)
  else if c!"$ref:".isPrefixOf id then .ref (id.drop 5)
  else if c!"$uri:".isPrefixOf id then .uri (id.drop 5)
  else .other

/-- a paragraph placed on a page (index, object, width) at a position, with the rectangles of its ids -/
structure Put where
  page : Nat
  objId : Nat
  width : Rat
  x : Rat
  y : Rat
  ids : List (Str × List IdRect)

/-- a rectangle moved to the position of the paragraph -/
def movedRect (rnd : Rat → Rat) (x y : Rat) : IdRect → List Rat
  | (l, b, r, t) => [rnd (x + l), rnd (y + b), rnd (x + r), rnd (y + t)]

/-- the annotations for the rectangles of an id; `action` are the objects of the actions of links -/
def idAnnots (rnd : Rat → Rat) (action : Str → Nat) (p : Put) (id : Str × List IdRect) : List Annot :=
  match idKind id.1 with
  | .ref name => id.2.map fun r => .dest name (movedRect rnd p.x p.y r)
  | .uri link => id.2.map fun r => .link (action link) (movedRect rnd p.x p.y r)
  | _ => []

/-- the annotations a page should have: those of the paragraphs placed on it, in that order -/
def pageAnnots (rnd : Rat → Rat) (action : Str → Nat) (i : Nat) (puts : List Put) : List Annot :=
  (puts.filter fun p => p.page = i).flatMap fun p => p.ids.flatMap (idAnnots rnd action p)

/-- where a label of a paragraph is: the left top corner of its first rectangle -/
def idDests (rnd : Rat → Rat) (name : Str) (p : Put) (id : Str × List IdRect) : List PDest :=
  match idKind id.1, id.2 with
  | .label n, (l, _, _, t) :: _ =>
    if n = name then [⟨p.objId, rnd (p.x + l), rnd (p.y + t), rnd ((p.x + l) / p.width) + 1⟩] else []
  | _, _ => []

/-- all the places of a label -/
def labelDests (rnd : Rat → Rat) (name : Str) (puts : List Put) : List PDest :=
  puts.flatMap fun p => p.ids.flatMap (idDests rnd name p)

/-- the links of paragraphs -/
def linksOf (puts : List Put) : List Str :=
  puts.flatMap fun p => p.ids.filterMap fun id => match idKind id.1, id.2 with
    | .uri link, _ :: _ => some link
    | _, _ => none

example : idKind c!"$uri:http://a" = .uri c!"http://a" := by decide
example : labelDests id c!"a" [⟨0, 4, 100, 10, 20, [(c!"$label:a", [(1, 2, 3, 4)])]⟩, ⟨1, 6, 100, 10, 30, [(c!"$label:a", [(1, 2, 3, 4)])]⟩]
    = [⟨4, 11, 24, 111/100⟩, ⟨6, 11, 34, 111/100⟩] := by decide +kernel

end Verif.Spec
