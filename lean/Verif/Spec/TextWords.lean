import Verif.Model.Text
import Verif.Spec.Words
/-! # The words of the elements of a paragraph and of its lines -/
namespace Verif
open Spec

/-- a piece of a line: a word with its style and ids -/
abbrev Piece := Str × TLook × Option (List Str)

/-- a piece of text, or a separator when it is blank -/
def pieceTok (p : Piece) : WTok Piece := if strIsSpace p.1 then .sep else .word p

/-- the text of an element of the content -/
def itemToks : TItem → List (WTok Piece)
  | .br => [.sep]
  | .skip => []
  | .text ws look ids => ws.map fun w => pieceTok (w, look, ids)

/-- the text of a line -/
def lineToks (l : TLine × Bool) : List (WTok Piece) :=
  (l.1.parts.flatMap fun p => p.words.map fun w => pieceTok (w, p.look, p.ids)) ++ [.sep]

end Verif
