import Verif.Model.TableRun
import Verif.Model.Text
import Verif.Model.PdfParts
/-! Model of the paragraphs and images in the cells of a table: `process_text` and `process_image` (table.py:830-915).

Simplifications. A paragraph is given by what `PDFText` makes of its element (`TCfg`) and by the rectangles it has been run in; between
two runs `set_state` gives it the position `get_state` had read from it, which changes nothing. The streams of a paragraph are in
`TextOut`; here it has its lines. A content that is finished is not run again (table.py:816-817). -/
namespace Verif

/-- what a cell shows: a paragraph, or an image that was shown or not -/
inductive Leaf
  | par (cfg : TCfg) (rects : List (Rat × Rat))
  | image (im : PImg) (shown : Bool)

/-- a part of a table: a paragraph with its lines, or an image; `y` is the top of a paragraph and the bottom of an image -/
inductive LeafPart
  | par (x y width height : Rat) (cfg : TCfg) (lines : List (TLine × Bool))
  | image (im : PImg) (x y width height : Rat)

variable {B C : Type}

/-- nothing more to be shown -/
def leafDone (c : Leaf) : CellOut Leaf LeafPart B C := ⟨[], [], [], 0, true, c⟩

/-- `process_text`, table.py:830-872 -/
def parExec (M : Metrics) (cfg : TCfg) (rects : List (Rat × Rat)) (x y w h : Rat) : CellOut Leaf LeafPart B C :=
  let pos := (textRuns M cfg rects TPos.init).1
  if pos.finished then leafDone (.par cfg rects)
  else
    let r := textRun M cfg w h pos
    ⟨[.par x y w r.curHeight cfg r.lines], [], [], r.curHeight, r.pos.finished, .par cfg (rects ++ [(w, h)])⟩

/-- `process_image`, table.py:874-915 -/
def imageExec (im : PImg) (x y w h : Rat) : Except PyErr (CellOut Leaf LeafPart B C) :=
  match scaled w im.height im.width with
  | .error e => .error e
  | .ok ih =>
    if ih < h then .ok ⟨[.image im x (y - ih) w ih], [], [], ih, true, .image im true⟩
    else .ok ⟨[], [], [], 0, false, .image im false⟩

/-- running the content of a cell -/
def leafExec (M : Metrics) : Leaf → Rat → Rat → Rat → Rat → Except PyErr (CellOut Leaf LeafPart B C)
  | .par cfg rects, x, y, w, h => .ok (parExec M cfg rects x y w h)
  | .image im true, _, _, _, _ => .ok (leafDone (.image im true))
  | .image im false, x, y, w, h => imageExec im x y w h

end Verif
