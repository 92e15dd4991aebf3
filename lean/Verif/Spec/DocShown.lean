import Verif.Spec.Links
import Verif.Spec.ReadDoc
import Verif.Spec.Meaning
/-! # Specification: what the operations on a document ask for

The paragraphs placed by a sequence of operations, and the links, destinations and outline items they ask for. -/
namespace Verif.Spec

/-- a paragraph placed on the page with an index, with the rectangles of its ids -/
structure Place where
  page : Nat
  x : Rat
  y : Rat
  ids : List (Str × List IdRect)

/-- an id that stands for an item of the outline -/
def outlineData (id : Str) : Option Str := if c!"$outline:".isPrefixOf id then some (id.drop 9) else none

/-- the outline items (level, title, destination) asked for by ids that are shown somewhere; `json` reads them -/
def idOutlines (json : Str → Option (Int × Str × Str)) (ids : List (Str × List IdRect)) : List (Int × Str × Str) :=
  ids.filterMap fun id => if id.2 = [] then none else (outlineData id.1).bind json

/-- the outline items asked for by paragraphs, in their order -/
def outlinesOf (json : Str → Option (Int × Str × Str)) (places : List Place) : List (Int × Str × Str) :=
  places.flatMap fun p => idOutlines json p.ids

/-- the links an id asks for: where the rectangle is and where the link leads -/
def idLinks (rnd : Rat → Rat) (p : Place) (id : Str × List IdRect) : List (List Rat × Action) :=
  match idKind id.1 with
  | .ref name => id.2.map fun r => (movedRect rnd p.x p.y r, .goto (latinBytes name))
  | .uri link => id.2.map fun r => (movedRect rnd p.x p.y r, .uri (latinBytes link))
  | _ => []

/-- the links of the page with index `i` -/
def linksOn (rnd : Rat → Rat) (i : Nat) (places : List Place) : List (List Rat × Action) :=
  (places.filter fun p => p.page = i).flatMap fun p => p.ids.flatMap (idLinks rnd p)

/-- the places an id asks for under a name: page, left, top, and the zoom for the width of the page -/
def idSpots (rnd : Rat → Rat) (width : Nat → Rat) (name : Str) (p : Place) (id : Str × List IdRect) : List (Nat × Rat × Rat × Rat) :=
  match idKind id.1, id.2 with
  | .label n, (l, _, _, t) :: _ =>
    if n = name then [(p.page, rnd (p.x + l), rnd (p.y + t), rnd ((p.x + l) / width p.page) + 1)] else []
  | _, _ => []

/-- the places of a name, in their order -/
def spotsOf (rnd : Rat → Rat) (width : Nat → Rat) (name : Str) (places : List Place) : List (Nat × Rat × Rat × Rat) :=
  places.flatMap fun p => p.ids.flatMap (idSpots rnd width name p)

mutual
/-- the items of an outline that is shown, in the order on the screen, with their levels -/
def Bookmark.items (k : Nat) : Bookmark → List (Nat × Bytes × Bytes)
  | .mk title dest kids => (k, title, dest) :: Bookmark.allItems (k + 1) kids
def Bookmark.allItems (k : Nat) : List Bookmark → List (Nat × Bytes × Bytes)
  | [] => []
  | b :: l => b.items k ++ Bookmark.allItems k l
end

example : Bookmark.allItems 1 [.mk b!"a" b!"x" [.mk b!"b" b!"y" []], .mk b!"c" b!"z" []] =
    [(1, b!"a", b!"x"), (2, b!"b", b!"y"), (1, b!"c", b!"z")] := by decide
example : linksOn id 1 [⟨0, 1, 1, [(c!"$uri:u", [(0, 0, 1, 1)])]⟩, ⟨1, 10, 20, [(c!"$ref:a", [(1, 2, 3, 4)])]⟩] =
    [([11, 22, 13, 24], .goto b!"a")] := by decide +kernel
example : spotsOf id (fun _ => 100) c!"a" [⟨1, 10, 20, [(c!"$label:a", [(1, 2, 3, 4)]), (c!"$label:b", [(1, 2, 3, 4)])]⟩] =
    [(1, 11, 24, 111/100)] := by decide +kernel

end Verif.Spec
