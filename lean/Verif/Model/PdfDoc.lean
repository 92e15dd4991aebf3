import Verif.Model.Document
import Verif.Model.PdfFlow
/-! Model of `PDFDocument.run` (document.py:284-408) with all it puts on the pages: every section begins a page, is run on it and, while it is not finished, on
new pages, each of them with its running sections.

Simplifications: those of `Document` and `PdfFlow`. Sections and running sections are content boxes of one column. What a running section holds is a function of
its name and the page number, its only part of the context that changes. Sections have no footnotes: a run that leaves one ends the model, as one out of fuel does. -/
namespace Verif

/-- a section -/
structure BookSec where
  style : SecStyle
  running : List Str
  box : DocBox

/-- the parts of a document that do not change, number parsing and the order of sets; `shows` gives what a running section of this name holds on a page
with this number -/
structure Book where
  float : Str → Option Rat
  order : List Str → List Str
  style : SecStyle
  secs : List (Str × RunSec)
  perPage : List PerPage
  shows : Str → Str → DocBox

/-- a page, before anything is put on it: its size and margins, the arguments of its running sections, and its number -/
structure PagePlan where
  sheet : Sheet
  boxes : List RunBox
  number : Str

/-- the size and margins of a page, document.py:344-347 -/
def sheetOf (size : Rat × Rat) (m : List (Str × Rat)) : Except PyErr Sheet := do
  let left ← side m c!"left"
  let right ← side m c!"right"
  let top ← side m c!"top"
  let bottom ← side m c!"bottom"
  pure ⟨size.1, size.2, top, bottom, left, right⟩

/-- page `n`: the settings after it and the page, document.py:317-353 and pdf.py:258-276, 199-202 -/
def pagePlan (B : Book) (style : SecStyle) (running : List Str) (setup : PageSetup) (roman : Bool) (offset : Int) (n : Nat) : Except PyErr (PageSetup × PagePlan) :=
  let r := perPageArgs n B.perPage (⟨style.size, style.rotate, style.margin⟩, setUpdate [] running)
  match setup.setup B.float r.1 with
  | .error e => .error e
  | .ok setup => match sheetOf setup.size setup.margin with
    | .error e => .error e
    | .ok sheet => match setRunning B.secs setup.size.1 setup.size.2 setup.margin (B.order r.2) with
      | .error e => .error e
      | .ok boxes => match Page.ofMargins 0 setup.size.1 setup.size.2 setup.margin with
        | .error e => .error e
        | .ok _ => match pageNumber roman offset n with
          | .error e => .error e
          | .ok number => .ok (setup, ⟨sheet, boxes, number⟩)

/-- what became of a page: for each running section whether it was finished, and whether the section was (not in the code) -/
structure BookPage where
  plan : PagePlan
  fits : List Bool
  last : Bool

/-- the state of a document; `plans` are its pages -/
structure BookSt where
  pdf : PdfD
  proc : FProc
  setup : PageSetup
  offset : Int
  roman : Bool
  plans : List BookPage

section
variable (E : PdfEnv) (T : TextEnv) (fuel : Nat)

/-- the running sections of a page, pdf.py:278-279 -/
def PdfD.putRunning (shows : Str → DocBox) : List RunBox → FProc → PdfD → CRun ((FProc × PdfD) × List Bool)
  | [], p, s => .ok ((p, s), [])
  | b :: l, p, s =>
    match s.putFlow E T.fmt.toNumFmt (contentFlow T fuel (shows b.name)) p (CContent.new 1 (shows b.name).gap (shows b.name).els) b.x b.y b.width b.height with
    | .error e => .error e
    | .ok r => match r.1.2.putRunning shows l r.1.1 with
      | .error e => .error e
      | .ok q => .ok (q.1, r.2.finished :: q.2)

/-- `_check_footnote` finds one, document.py:420-427 -/
def DocPart.footnoted : DocPart → Bool
  | .par _ _ _ _ _ _ _ ids _ _ => ids.any fun p => p.2 ≠ [] && c!"$footnote:".isPrefixOf p.1
  | .image _ _ _ _ _ => false

/-- `_add_content`, document.py:362-385, without footnotes -/
def PdfD.putBody (k : Sheet) (b : DocBox) (c : CContent (DocNest b.depth) (TagPart DocPart) LineLook (PDFColor Rat)) (p : FProc) (s : PdfD) :
    CRun ((FProc × PdfD) × FlowOut (CContent (DocNest b.depth) (TagPart DocPart) LineLook (PDFColor Rat))) :=
  match contentFlow T fuel b c k.left (k.h - k.top) (k.w - k.right - k.left) (k.h - k.top - k.bottom) with
  | .error e => .error e
  | .ok o =>
    if o.parts.any DocPart.footnoted then .error none
    else match s.addBox E T.fmt.toNumFmt p o.box (k.w - k.right - k.left) c!"bottom" with
      | .error e => .error (some e)
      | .ok d => .ok (d, o)

variable (B : Book)

/-- the loop body of `_process_section`, document.py:317-360 -/
def bookPage (style : SecStyle) (running : List Str) (b : DocBox) (s : BookSt) (c : CContent (DocNest b.depth) (TagPart DocPart) LineLook (PDFColor Rat)) :
    CRun (BookSt × FlowOut (CContent (DocNest b.depth) (TagPart DocPart) LineLook (PDFColor Rat))) :=
  match pagePlan B style running s.setup s.roman s.offset s.pdf.doc.pages.length with
  | .error e => .error (some e)
  | .ok (setup, plan) =>
    match (s.pdf.nextPage plan.sheet).putRunning E T fuel (fun n => B.shows n plan.number) plan.boxes s.proc with
    | .error e => .error e
    | .ok ((p, d), fits) =>
      match ({ d with doc := d.doc.onPage Page.goToBeginning } : PdfD).putBody E T fuel plan.sheet b c p with
      | .error e => .error e
      | .ok ((p, d), o) => .ok (⟨d, p, setup, s.offset, s.roman, s.plans ++ [⟨plan, fits, o.finished⟩]⟩, o)

/-- the loop of `_process_section`, document.py:316-360 -/
def bookPages (style : SecStyle) (running : List Str) (b : DocBox) : Nat → BookSt → CContent (DocNest b.depth) (TagPart DocPart) LineLook (PDFColor Rat) → CRun BookSt
  | 0, _, _ => .error none
  | n + 1, s, c => match bookPage E T fuel B style running b s c with
    | .error e => .error e
    | .ok (s, o) => if o.finished then .ok s else bookPages style running b n s o.next

/-- `_process_section`, document.py:290-360 -/
def bookSection (s : BookSt) (d : BookSec) : CRun BookSt :=
  let style := B.style.update d.style
  let offset := style.offset.getD s.offset
  let offset := if style.reset.getD false then -(s.pdf.doc.pages.length : Int) else offset
  bookPages E T fuel B style d.running d.box fuel { s with offset := offset, roman := style.roman.getD s.roman } (CContent.new 1 d.box.gap d.box.els)

/-- `run`, document.py:284-288 -/
def bookRun : List BookSec → BookSt → CRun BookSt
  | [], s => .ok s
  | d :: l, s => match bookSection E T fuel B s d with
    | .error e => .error e
    | .ok s => bookRun l s

/-- a new document and its sections; `setup`, `offset` and `roman` are those that it is made with -/
def madeBook (version : Str) (setup : PageSetup) (offset : Int) (roman : Bool) (l : List BookSec) (p : FProc) : CRun BookSt :=
  match PdfT.new E p version with
  | .error e => .error (some e)
  | .ok r => bookRun E T fuel B l ⟨⟨r.2, []⟩, r.1, setup, offset, roman, []⟩

end
end Verif
