import Verif.Model.PdfPages
import Verif.Model.Cells
import Verif.Model.Nest
/-! Model of `PDF.image` (pdf.py:426-457), `PDF.table` (pdf.py:741-803) and `PDF.content` (pdf.py:805-876) with all they put on the pages: the table
or content box is put on the current page and, while it is not finished, on new pages; its paragraphs and images are given to `_add_text` and `add_image`.

Simplifications: those of `TableRun`, `Cells`, `Content`, `Nest`, `TextOut` and `PdfPages`. A table or content box is made without a rectangle, which its
first run gives it. Content boxes have one column. `table` takes tables of paragraphs and images, `grid` tables with anything in their cells. -/
namespace Verif

/-- what a cell shows: a paragraph with the rectangles it was run in and its `correct_indent`, or an image that was shown or not -/
inductive DocLeaf
  | par (a : TextArgs) (rects : List (Rat × Rat)) (correct : Bool)
  | image (im : PImg) (shown : Bool)

/-- a part of a table: the `result` of a paragraph (text.py:484-523) with its lines, or an image -/
inductive DocPart
  | par (x y width height : Rat) (text graphics : Str) (used : List FKey) (ids : List (Str × List IdRect)) (cfg : TCfg) (lines : List (TLine × Bool))
  | image (im : PImg) (x y width height : Rat)

/-- what `_add_parts` gets -/
def DocPart.part : DocPart → PdfPart
  | .par x y width height text graphics used ids _ _ => .paragraph x y width height text graphics used ids
  | .image im x y width height => .image im x y width height

/-- the colour and style of a border -/
abbrev LineLook := PDFColor Rat × Str

/-- nothing more to be shown -/
def docDone (c : DocLeaf) : CellOut DocLeaf DocPart LineLook (PDFColor Rat) := ⟨[], [], [], 0, true, c⟩

/-- `process_text`, table.py:830-872 -/
def docParExec (T : TextEnv) (a : TextArgs) (rects : List (Rat × Rat)) (correct : Bool) (x y w h : Rat) :
    Except PyErr (CellOut DocLeaf DocPart LineLook (PDFColor Rat)) :=
  let pos := (textRuns T.metrics a.cfg rects TPos.init).1
  if pos.finished then .ok (docDone (.par a rects correct))
  else
    let r := textRun T.metrics a.cfg w h pos
    match textOut T.fmt T.metrics T.encs a.cfg a.enc w h pos correct with
    | .error e => .error e
    | .ok o => .ok ⟨[.par x y w r.curHeight o.text o.graphics r.used o.ids a.cfg r.lines], [], [], r.curHeight, r.pos.finished,
        .par a (rects ++ [(w, h)]) o.geo.correct⟩

/-- `process_image`, table.py:874-915 -/
def docImageExec (im : PImg) (x y w h : Rat) : Except PyErr (CellOut DocLeaf DocPart LineLook (PDFColor Rat)) :=
  match scaled w im.height im.width with
  | .error e => .error e
  | .ok ih =>
    if ih < h then .ok ⟨[.image im x (y - ih) w ih], [], [], ih, true, .image im true⟩
    else .ok ⟨[], [], [], 0, false, .image im false⟩

/-- running the content of a cell -/
def docExec (T : TextEnv) : DocLeaf → Rat → Rat → Rat → Rat → Except PyErr (CellOut DocLeaf DocPart LineLook (PDFColor Rat))
  | .par a rects correct, x, y, w, h => docParExec T a rects correct x y w h
  | .image im true, _, _, _, _ => .ok (docDone (.image im true))
  | .image im false, x, y, w, h => docImageExec im x y w h

/-- a table of a document -/
abbrev DocTable := TConf DocLeaf DocPart LineLook (PDFColor Rat)

/-- a line of a table as `create_graphics` gets it (utils.py:271-302); a line without a lower end is a `KeyError` -/
def BLine.graphic (l : BLine LineLook) : Except PyErr Graphic :=
  match l.y2 with
  | none => .error .keyError
  | some y2 => .ok (.line l.look.1 l.width l.look.2 l.x1 l.y1 l.x2 y2)

/-- the lines of a table -/
def lineGraphics : List (BLine LineLook) → Except PyErr (List Graphic)
  | [] => .ok []
  | l :: ls => match l.graphic, lineGraphics ls with
    | .error e, _ => .error e
    | .ok _, .error e => .error e
    | .ok g, .ok gs => .ok (g :: gs)

/-- a fill of a table as `create_graphics` gets it (utils.py:261-269) -/
def TFill.graphic (f : TFill (PDFColor Rat)) : Graphic := .fill f.color f.x f.y f.width f.height

/-- what a run of a table or content box leaves: fills, lines, parts and `current_height`; what is kept, and whether it is finished -/
structure FlowOut (σ : Type) where
  fills : List Graphic
  lines : List Graphic
  parts : List DocPart
  height : Rat
  next : σ
  finished : Bool

/-- what `_add_graphics` and `_add_parts` get -/
def FlowOut.box {σ : Type} (o : FlowOut σ) : BoxOut := ⟨o.fills, o.lines, o.parts.map DocPart.part, o.height⟩

section
variable {σ : Type} (E : PdfEnv) (F : NumFmt) (run : σ → Rat → Rat → Rat → Rat → CRun (FlowOut σ))

/-- `_table` and `_content`, pdf.py:741-780, 824-858, with `move` at its default -/
def PdfD.putFlow (p : FProc) (s : PdfD) (c : σ) (x y width height : Option Rat) : CRun ((FProc × PdfD) × FlowOut σ) :=
  match s.doc.pages[s.doc.pageIndex]? with
  | none => .error (some .indexError)
  | some page =>
    let q := page.positionAndSize x y width height
    match run c q.1.1 q.1.2.1 q.1.2.2.1 q.1.2.2.2 with
    | .error e => .error e
    | .ok o => match ({ s with doc := s.doc.onPage fun _ => q.2 } : PdfD).addBox E F p o.box q.1.2.2.1 c!"bottom" with
      | .error e => .error (some e)
      | .ok d => .ok (d, o)

/-- the loops of `table` and `content`, pdf.py:798-803, 871-876, at most `fuel` times -/
def PdfD.moreFlow (k : Sheet) : Nat → FProc → PdfD → FlowOut σ → CRun (FProc × PdfD)
  | 0, p, s, o => if o.finished then .ok (p, s) else .error none
  | n + 1, p, s, o =>
    if o.finished then .ok (p, s)
    else
      let s := s.nextPage k
      match s.doc.pages[s.doc.pageIndex]? with
      | none => .error (some .indexError)
      | some page =>
        match s.putFlow E F run p o.next (some page.marginLeft) (some page.marginTop) (some page.contentWidth) (some page.contentHeight) with
        | .error e => .error e
        | .ok r => r.1.2.moreFlow k n r.1.1 r.2

/-- `table` and `content`, pdf.py:782-803, 860-876 -/
def PdfD.flow (k : Sheet) (fuel : Nat) (p : FProc) (s : PdfD) (c : σ) : CRun (FProc × PdfD) :=
  match s.doc.pages[s.doc.pageIndex]? with
  | none => .error (some .indexError)
  | some page =>
    match s.putFlow E F run p c (some page.marginLeft) none (some page.contentWidth) none with
    | .error e => .error e
    | .ok r => r.1.2.moreFlow E F run k fuel r.1.1 r.2

end

/-- `run` of a table (table.py:451-523), with its lines and fills as graphics -/
def tableFlow (T : DocTable) (s : TS DocLeaf DocPart LineLook (PDFColor Rat)) (x y w h : Rat) :
    CRun (FlowOut (TS DocLeaf DocPart LineLook (PDFColor Rat))) :=
  match s.run T x y w h with
  | .error e => .error (some e)
  | .ok s => match lineGraphics s.lines with
    | .error e => .error (some e)
    | .ok ls => .ok ⟨s.fills.map TFill.graphic, ls, s.parts, s.currentHeight, s, s.finished⟩

/-- what tables and boxes of a document hold, up to `n` deep -/
abbrev DocNest (n : Nat) := Nest DocLeaf LineLook (PDFColor Rat) n

/-- running it -/
def docNestExec (T : TextEnv) (fuel n : Nat) : DocNest n → Rat → Rat → Rat → Rat → Except PyErr (CellOut (DocNest n) (TagPart DocPart) LineLook (PDFColor Rat)) :=
  nestExec (docExec T) fuel n

/-- what is added to the page; `images` are the images that are elements of boxes -/
def tagDoc (images : Nat → PImg) : TagPart DocPart → DocPart
  | .leaf p => p.2
  | .image n x y width height => .image (images n) x y width height

/-- a table with paragraphs, images, tables and boxes in its cells -/
structure DocGrid where
  depth : Nat
  images : Nat → PImg
  data : TabData (DocNest depth) LineLook (PDFColor Rat)

/-- a content box of one column -/
structure DocBox where
  depth : Nat
  images : Nat → PImg
  gap : Option Rat
  els : List (CEl (DocNest depth))

/-- `run` of such a table (table.py:451-523) -/
def gridFlow (T : TextEnv) (fuel : Nat) (g : DocGrid) (s : TS (DocNest g.depth) (TagPart DocPart) LineLook (PDFColor Rat)) (x y w h : Rat) :
    CRun (FlowOut (TS (DocNest g.depth) (TagPart DocPart) LineLook (PDFColor Rat))) :=
  match s.run (g.data.conf (docNestExec T fuel g.depth)) x y w h with
  | .error e => .error (some e)
  | .ok s => match lineGraphics s.lines with
    | .error e => .error (some e)
    | .ok ls => .ok ⟨s.fills.map TFill.graphic, ls, s.parts.map (tagDoc g.images), s.currentHeight, s, s.finished⟩

/-- `run` of a content box (content.py:222-259) -/
def contentFlow (T : TextEnv) (fuel : Nat) (b : DocBox) (s : CContent (DocNest b.depth) (TagPart DocPart) LineLook (PDFColor Rat)) (x y w h : Rat) :
    CRun (FlowOut (CContent (DocNest b.depth) (TagPart DocPart) LineLook (PDFColor Rat))) :=
  match s.run (docNestExec T fuel b.depth) fuel x y w h with
  | .error e => .error e
  | .ok s => match lineGraphics s.out.lines with
    | .error e => .error (some e)
    | .ok ls => .ok ⟨s.out.fills.map TFill.graphic, ls, s.out.parts.map fun p => tagDoc b.images p.join, s.currentHeight, s, s.finished⟩

/-- the calls that write a document -/
inductive AddOp
  | page (k : Sheet)
  | text (a : TextArgs)
  | image (im : PImg) (x y width height : Option Rat)
  | table (T : DocTable)
  | grid (g : DocGrid)
  | content (b : DocBox)

/-- one call; `k` is the page of the settings of the document -/
def PdfD.put (E : PdfEnv) (T : TextEnv) (k : Sheet) (fuel : Nat) (p : FProc) (s : PdfD) : AddOp → CRun (FProc × PdfD)
  | .page k => .ok (p, s.nextPage k)
  | .text a => s.text E T k fuel p a
  | .image im x y width height => match s.addImage T.fmt.toNumFmt im x y width height c!"bottom" with
    | .error e => .error (some e)
    | .ok s => .ok (p, s)
  | .table t => s.flow E T.fmt.toNumFmt (tableFlow t) k fuel p (TS.new 0 0 0 0)
  | .grid g => s.flow E T.fmt.toNumFmt (gridFlow T fuel g) k fuel p (TS.new 0 0 0 0)
  | .content b => s.flow E T.fmt.toNumFmt (contentFlow T fuel b) k fuel p (CContent.new 1 b.gap b.els)

/-- a sequence of calls -/
def PdfD.puts (E : PdfEnv) (T : TextEnv) (k : Sheet) (fuel : Nat) : List AddOp → FProc → PdfD → CRun (FProc × PdfD)
  | [], p, s => .ok (p, s)
  | a :: l, p, s => match s.put E T k fuel p a with
    | .error e => .error e
    | .ok r => r.2.puts E T k fuel l r.1

/-- a new document and a sequence of calls -/
def madeDoc (E : PdfEnv) (T : TextEnv) (k : Sheet) (fuel : Nat) (version : Str) (l : List AddOp) (p : FProc) : CRun (FProc × PdfD) :=
  match PdfT.new E p version with
  | .error e => .error (some e)
  | .ok r => (⟨r.2, []⟩ : PdfD).puts E T k fuel l r.1

end Verif
