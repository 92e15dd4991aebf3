import Verif.Model.PdfText
/-! Model of how `pdfme/pdf.py` adds images, tables and content boxes to a document: `add_image`, `_add_graphics`,
`_add_parts` and the ends of `_table` and `_content`. What an exception leaves behind is not modelled. -/
namespace Verif

/-- the attributes of a `PDFImage` (image.py:31-80, 82-147): its name, size and dict -/
structure PImg where
  name : Str
  width : Nat
  height : Nat
  obj : List (Key × Obj)

/-- a `PDF` with its attribute `images` (pdf.py:180) -/
structure PdfD where
  doc : PdfT
  images : List (Str × Nat)

/-- the object of an image, pdf.py:397-401 -/
def PdfD.imageObj (s : PdfD) (im : PImg) : Nat × PdfD :=
  match dget im.name s.images with
  | some id => (id, s)
  | none =>
    let r := s.doc.base.addDict im.obj
    (r.1, ⟨{ s.doc with base := r.2 }, dset im.name r.1 s.images⟩)

/-- `a * b/c` -/
def scaled (a : Rat) (b c : Nat) : Except PyErr Rat := if c = 0 then .error .zeroDivision else .ok (a * b / c)

/-- the width and height of an image, pdf.py:406-412 -/
def imageSize (contentWidth : Rat) (w h : Nat) : Option Rat → Option Rat → Except PyErr (Rat × Rat)
  | none, none => (scaled contentWidth h w).map fun r => (contentWidth, r)
  | none, some height => (scaled height w h).map fun r => (r, height)
  | some width, none => (scaled width h w).map fun r => (width, r)
  | some width, some height => .ok (width, height)

/-- `add_image`, pdf.py:372-424 -/
def PdfD.addImage (F : NumFmt) (s : PdfD) (im : PImg) (x y width height : Option Rat) (move : Str) : Except PyErr PdfD :=
  let r := s.imageObj im
  match r.2.doc.pages[r.2.doc.pageIndex]? with
  | none => .error .indexError
  | some page => match imageSize page.contentWidth im.width im.height width height with
    | .error e => .error e
    | .ok wh =>
      match ({ page with x := x.getD page.x, yUp := y.getD page.yUp } : Page).addImage F r.1 wh.1 wh.2 with
      | .error e => .error e
      | .ok page' => .ok { r.2 with doc := r.2.doc.onPage fun _ => movePage move wh.1 wh.2 page' }

/-- an element of `parts` -/
inductive PdfPart
  | paragraph (x y width height : Rat) (text graphics : Str) (used : List FKey) (ids : List (Str × List IdRect))
  | image (im : PImg) (x y width height : Rat)

/-- one part, pdf.py:902-907; `move` has its default -/
def PdfD.addPart (E : PdfEnv) (F : NumFmt) (p : FProc) (s : PdfD) : PdfPart → Except PyErr (FProc × PdfD)
  | .paragraph x y width height text graphics used ids =>
    (s.doc.addText E F p x y width height text graphics used ids c!"bottom").map fun r => (r.1, { s with doc := r.2 })
  | .image im x y width height =>
    (s.addImage F im (some x) (some y) (some width) (some height) c!"bottom").map fun r => (p, r)

/-- `_add_parts`, pdf.py:888-907 -/
def PdfD.addParts (E : PdfEnv) (F : NumFmt) : List PdfPart → FProc → PdfD → Except PyErr (FProc × PdfD)
  | [], p, s => .ok (p, s)
  | a :: l, p, s => match s.addPart E F p a with
    | .error e => .error e
    | .ok r => r.2.addParts E F l r.1

/-- `_add_graphics`, pdf.py:878-886 -/
def PdfD.addGraphics (F : NumFmt) (s : PdfD) (gs : List Graphic) : Except PyErr PdfD :=
  match createGraphics F gs with
  | .error e => .error e
  | .ok t => match s.doc.pages[s.doc.pageIndex]? with
    | none => .error .indexError
    | some page => match page.addStr t with
      | .error e => .error e
      | .ok r => .ok { s with doc := s.doc.onPage fun _ => r.2 }

/-- what `run` leaves in a table or content box: fills, lines, parts and `current_height` -/
structure BoxOut where
  fills : List Graphic
  lines : List Graphic
  parts : List PdfPart
  height : Rat

/-- the end of `_table` and of `_content`, pdf.py:772-778, 850-856; `width` is that of the rectangle -/
def PdfD.addBox (E : PdfEnv) (F : NumFmt) (p : FProc) (s : PdfD) (b : BoxOut) (width : Rat) (move : Str) :
    Except PyErr (FProc × PdfD) :=
  match s.addGraphics F (b.fills ++ b.lines) with
  | .error e => .error e
  | .ok s1 => match s1.addParts E F b.parts p with
    | .error e => .error e
    | .ok r => .ok (r.1, { r.2 with doc := r.2.doc.onPage (movePage move width b.height) })

/-- `_position_and_size`, pdf.py:515-541: `x`, `y` (from the bottom), width and height, and the page afterwards -/
def Page.positionAndSize (page : Page) (x y width height : Option Rat) : (Rat × Rat × Rat × Rat) × Page :=
  let q := { page with x := x.getD page.x }
  let q := match y with
    | none => q
    | some y => q.setY y
  ((q.x, q.yUp, width.getD (q.width - q.marginRight - q.x), height.getD (q.height - q.marginBottom - q.y)), q)

/-- `_table` and `_content`, pdf.py:741-780, 824-858: `run` is what the table or content box does in a rectangle -/
def PdfD.putBox (E : PdfEnv) (F : NumFmt) (p : FProc) (s : PdfD) (run : Rat → Rat → Rat → Rat → Except PyErr BoxOut)
    (x y width height : Option Rat) (move : Str) : Except PyErr (FProc × PdfD) :=
  match s.doc.pages[s.doc.pageIndex]? with
  | none => .error .indexError
  | some page =>
    let r := page.positionAndSize x y width height
    match run r.1.1 r.1.2.1 r.1.2.2.1 r.1.2.2.2 with
    | .error e => .error e
    | .ok b => ({ s with doc := s.doc.onPage fun _ => r.2 } : PdfD).addBox E F p b r.1.2.2.1 move

end Verif
