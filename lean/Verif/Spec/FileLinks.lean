import Verif.Model.PdfFlow
import Verif.Spec.FileParts
import Verif.Spec.TextMarks
import Verif.Spec.TextWords
/-! # Specification: the links, names and outline of the pieces of a document

A piece of text belongs to a line of a paragraph that was put at a place of a page; `Mark`s are such pieces that have something to see. The ids a piece carries
ask for links (`$ref:`, `$uri:`), names (`$label:`) and items of the outline (`$outline:`). -/
namespace Verif.Spec

/-- the words of a piece of a document, with their styles and ids -/
def pieceWords (r : Painted) : List (List Piece) :=
  match r.mark with
  | some m => wordsOf (m.lines.flatMap lineToks)
  | none => []

/-- the words of a paragraph, with their styles and ids -/
def leafWords : DocLeaf → List (List Piece)
  | .par a _ _ => wordsOf (a.cfg.content.flatMap itemToks)
  | .image _ _ => []

/-- what an id leads to -/
def idAction (id : Str) : Option Action :=
  match idKind id with
  | .ref name => some (.goto (latinBytes name))
  | .uri link => some (.uri (latinBytes link))
  | _ => none

/-- the links of a paragraph with these pieces: id after id, in the order in which they first appear, a link for every piece that carries it -/
def pieceLinks (marks : List Mark) : List (Mark × Action) :=
  (firsts (markIds marks)).flatMap fun id => match idAction id with
    | some a => (marksOf id marks).map fun k => (k, a)
    | none => []

/-- the pieces with a link among what a page shows; `mk` are the pieces of text -/
def groupLinks (mk : Painted → List Mark) (rs : List Painted) : List (TextPiece × Mark × Action) :=
  rs.flatMap fun r => match r.mark with
    | some m => (pieceLinks (mk r)).map fun q => (m, q.1, q.2)
    | none => []

/-- the first pieces of paragraphs that carry the label of a name, with the index of their page -/
def namedPieces (mk : Painted → List Mark) (name : Str) (rs : List Painted) : List (Nat × TextPiece × Mark) :=
  rs.flatMap fun r => match r.mark with
    | some m => (marksOf (c!"$label:" ++ name) (mk r)).head?.toList.map fun k => (r.page, m, k)
    | none => []

/-- the items of the outline that pieces ask for, each once in a paragraph -/
def outlinePieces (mk : Painted → List Mark) (json : Str → Option (Int × Str × Str)) (rs : List Painted) : List (Int × Str × Str) :=
  rs.flatMap fun r => match r.mark with
    | some _ => (firsts (markIds (mk r))).filterMap fun id => (outlineData id).bind json
    | none => []

/-- the rectangle of a link is around a piece: it has the numbers `a`, `b`, `c`, `d`, which are those of the piece up to `e` -/
def LinkAround (num : Rat → Obj) (e : Rat) (m : TextPiece) (k : Mark) (rect : List PObj) : Prop :=
  ∃ a b c d, meaningList [num a, num b, num c, num d] = some rect ∧ |a - (m.x + k.x)| ≤ e ∧ |b - (m.y + (k.base - k.size / 4))| ≤ e ∧
    |c - (m.x + (k.x + k.w))| ≤ e ∧ |d - (m.y + (k.base + 3 * k.size / 4))| ≤ e

end Verif.Spec
