import Verif.Model.PdfParts
/-! Model of `PDF.text` (pdf.py:679-701): a paragraph is put on the current page and, while it is not
finished, on new pages. The text of a paragraph (`PDFText`, text.py) is given by its parts (`TCfg`); the pages
added by `text` have no running sections. -/
namespace Verif
open Spec

/-- the size and margins of a page -/
structure Sheet where
  w : Rat
  h : Rat
  top : Rat
  bottom : Rat
  left : Rat
  right : Rat

/-- what a document needs to write text: how numbers are written, the widths of characters, the glyphs of fonts -/
structure TextEnv where
  fmt : TFmt
  metrics : Metrics
  encs : Encs

/-- the arguments of a `PDFText`: its content and settings, and how the text of its list is encoded -/
structure TextArgs where
  cfg : TCfg
  enc : Option (Str × Str)

/-- a `PDFText` between two runs, text.py:460-472 -/
structure TextObj where
  args : TextArgs
  pos : TPos
  correct : Bool

/-- a new `PDFText` -/
def TextArgs.start (a : TextArgs) : TextObj := ⟨a, TPos.init, true⟩

/-- `_text`, pdf.py:645-677, with `move` at its default -/
def PdfD.putText (E : PdfEnv) (T : TextEnv) (p : FProc) (s : PdfD) (t : TextObj) (x y width height : Option Rat) :
    Except PyErr ((FProc × PdfD) × TextObj) :=
  match s.doc.pages[s.doc.pageIndex]? with
  | none => .error .indexError
  | some page =>
    let q := page.positionAndSize x y width height
    let r := textRun T.metrics t.args.cfg q.1.2.2.1 q.1.2.2.2 t.pos
    match textOut T.fmt T.metrics T.encs t.args.cfg t.args.enc q.1.2.2.1 q.1.2.2.2 t.pos t.correct with
    | .error e => .error e
    | .ok o =>
      match (s.doc.onPage fun _ => q.2).addText E T.fmt.toNumFmt p q.1.1 q.1.2.1 q.1.2.2.1 r.curHeight o.text o.graphics r.used o.ids c!"bottom" with
      | .error e => .error e
      | .ok d => .ok ((d.1, { s with doc := d.2 }), ⟨t.args, r.pos, o.geo.correct⟩)

/-- `self.add_page()` with the page settings of the document -/
def PdfD.nextPage (s : PdfD) (k : Sheet) : PdfD := { s with doc := s.doc.addPage k.w k.h k.top k.bottom k.left k.right }

/-- the loop of `text`, pdf.py:696-701, at most `fuel` times; `.error none` is running out of `fuel` -/
def PdfD.moreText (E : PdfEnv) (T : TextEnv) (k : Sheet) : Nat → FProc → PdfD → TextObj → Except (Option PyErr) (FProc × PdfD)
  | 0, p, s, t => if t.pos.finished then .ok (p, s) else .error none
  | n + 1, p, s, t =>
    if t.pos.finished then .ok (p, s)
    else
      let s := s.nextPage k
      match s.doc.pages[s.doc.pageIndex]? with
      | none => .error (some .indexError)
      | some page =>
        match s.putText E T p t (some page.marginLeft) (some page.marginTop) (some page.contentWidth) (some page.contentHeight) with
        | .error e => .error (some e)
        | .ok r => r.1.2.moreText E T k n r.1.1 r.2

/-- `text`, pdf.py:679-701 -/
def PdfD.text (E : PdfEnv) (T : TextEnv) (k : Sheet) (fuel : Nat) (p : FProc) (s : PdfD) (a : TextArgs) : Except (Option PyErr) (FProc × PdfD) :=
  match s.doc.pages[s.doc.pageIndex]? with
  | none => .error (some .indexError)
  | some page =>
    match s.putText E T p a.start (some page.marginLeft) none (some page.contentWidth) none with
    | .error e => .error (some e)
    | .ok r => r.1.2.moreText E T k fuel r.1.1 r.2

/-- the calls that write a document of paragraphs -/
inductive WriteOp
  | page (k : Sheet)
  | text (a : TextArgs)

/-- one call; `k` is the page of the settings of the document -/
def PdfD.write (E : PdfEnv) (T : TextEnv) (k : Sheet) (fuel : Nat) (p : FProc) (s : PdfD) : WriteOp → Except (Option PyErr) (FProc × PdfD)
  | .page k => .ok (p, s.nextPage k)
  | .text a => s.text E T k fuel p a

/-- a sequence of calls -/
def PdfD.writes (E : PdfEnv) (T : TextEnv) (k : Sheet) (fuel : Nat) : List WriteOp → FProc → PdfD → Except (Option PyErr) (FProc × PdfD)
  | [], p, s => .ok (p, s)
  | a :: l, p, s => match s.write E T k fuel p a with
    | .error e => .error e
    | .ok r => r.2.writes E T k fuel l r.1

/-- a new document and a sequence of calls -/
def writtenDoc (E : PdfEnv) (T : TextEnv) (k : Sheet) (fuel : Nat) (version : Str) (l : List WriteOp) (p : FProc) : Except (Option PyErr) (FProc × PdfD) :=
  match PdfT.new E p version with
  | .error e => .error (some e)
  | .ok r => (⟨r.2, []⟩ : PdfD).writes E T k fuel l r.1

/-- the paragraphs of a sequence of calls -/
def writtenTexts (l : List WriteOp) : List TextArgs := l.filterMap fun
  | .text a => some a
  | .page _ => none

end Verif
