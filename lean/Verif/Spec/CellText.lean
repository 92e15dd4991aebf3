import Verif.Model.Cells
import Verif.Spec.TextWords
/-! # What paragraphs and images in cells should show -/
namespace Verif.Spec

/-- what a cell shows: words and images -/
inductive LAtom
  | word (w : List Piece)
  | image (im : PImg)

/-- the words and images of a part of a table -/
def leafPartAtoms : LeafPart → List LAtom
  | .par _ _ _ _ _ ls => (wordsOf (ls.flatMap lineToks)).map .word
  | .image im _ _ _ _ => [.image im]

/-- the words and images of a content that was not run yet -/
def leafAtoms : Leaf → List LAtom
  | .par cfg _ => (wordsOf (cfg.content.flatMap itemToks)).map .word
  | .image im _ => [.image im]

/-- contents that can be shown in a box of some width -/
def LeafOk : Leaf → Rat → Prop
  | .par cfg _, _ => 0 < cfg.lineHeight
  | .image im _, w => 0 < im.width ∧ 0 < im.height ∧ 0 < w

/-- a content that was not run yet -/
def FreshLeaf : Leaf → Prop
  | .par _ rs => rs = []
  | .image _ shown => shown = false

end Verif.Spec
