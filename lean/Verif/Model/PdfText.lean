import Verif.Model.Fonts
import Verif.Model.Page
import Verif.Model.TextOut
import Verif.Model.Outline
/-! Model of how `pdfme/pdf.py` adds a paragraph to a document: `_add_or_get_font`, `_used_font` and
`_add_text`. What an exception leaves behind (the stream is added before the fonts) is not modelled. -/
namespace Verif
open Spec

/-- an entry of `dests`: the page object, left, top and zoom (pdf.py:603-606) -/
structure PDest where
  page : Nat
  x : Rat
  y : Rat
  zoom : Rat
  deriving DecidableEq

/-- the attributes of a `PDF` that adding text uses -/
structure PdfT where
  base : Base
  fonts : Fonts
  used : List (FKey × Str × Nat)         -- `used_fonts`
  pages : List Page
  pageIndex : Nat
  dests : List (Str × PDest)
  uris : List (Str × Nat)
  outlines : List Outline

/-- what a document is given from outside: font files, how floats are written, `json.loads` of the data of
outlines (level, text, label) and the rounding to 3 digits -/
structure PdfEnv where
  files : FontFiles
  num : Rat → Obj
  json : Str → Option (Int × Str × Str)
  rnd : Rat → Rat

/-- `_add_or_get_font`, pdf.py:323-345 -/
def PdfT.addOrGetFont (E : PdfEnv) (p : FProc) (s : PdfT) (k : FKey) : Except PyErr ((Str × Nat) × FProc × PdfT) :=
  match dget k s.used with
  | some r => .ok (r, p, s)
  | none => match s.fonts.getFont E.files p k with
    | .error e => .error e
    | .ok (f, p', fonts') => match addFontObj E.num E.files s.base f with
      | .error e => .error e
      | .ok (id, b) =>
        .ok ((f.ref, id), p', { s with fonts := fonts', base := b, used := dset k (f.ref, id) s.used })

/-- `self.page` is changed -/
def PdfT.onPage (s : PdfT) (f : Page → Page) : PdfT := { s with pages := s.pages.modify s.pageIndex f }

/-- `_used_font`, pdf.py:347-358 -/
def PdfT.usedFont (E : PdfEnv) (p : FProc) (s : PdfT) (k : FKey) : Except PyErr (FProc × PdfT) :=
  match s.addOrGetFont E p k with
  | .error e => .error e
  | .ok (r, p', s') => match s'.pages[s'.pageIndex]? with
    | none => .error .indexError
    | some _ => .ok (p', s'.onPage (·.addFont r.1 r.2))

/-- the loop over the used fonts, pdf.py:594-595 -/
def PdfT.usedFonts (E : PdfEnv) : List FKey → FProc → PdfT → Except PyErr (FProc × PdfT)
  | [], p, s => .ok (p, s)
  | k :: l, p, s => match s.usedFont E p k with
    | .error e => .error e
    | .ok (p', s') => s'.usedFonts E l p'

/-- the rectangle of an id on the page, pdf.py:611-614, 627-630 -/
def placeRect (rnd : Rat → Rat) (x y : Rat) (r : IdRect) : List Rat :=
  [rnd (x + r.1), rnd (y + r.2.1), rnd (x + r.2.2.1), rnd (y + r.2.2.2)]

/-- `s.startswith(p)`, and what follows -/
def afterPrefix : Str → Str → Option Str
  | [], s => some s
  | _ :: _, [] => none
  | a :: p, b :: s => if a = b then afterPrefix p s else none

/-- pdf.py:601-606 -/
def PdfT.addLabel (E : PdfEnv) (s : PdfT) (page : Page) (x y : Rat) (name : Str) (d : IdRect) : Except PyErr PdfT :=
  if page.width = 0 then .error .zeroDivision
  else
    let dest : PDest := ⟨page.objId, E.rnd (x + d.1), E.rnd (y + d.2.2.2), E.rnd ((x + d.1) / page.width) + 1⟩
    .ok { s with dests := dset name dest s.dests }

/-- pdf.py:607-615 -/
def PdfT.addRefs (E : PdfEnv) (s : PdfT) (x y : Rat) (name : Str) (rects : List IdRect) : PdfT :=
  s.onPage fun p => rects.foldl (fun p r => p.addAnnot (.dest name (placeRect E.rnd x y r))) p

/-- the object of the action of a uri, pdf.py:617-622 -/
def PdfT.uriId (s : PdfT) (link : Str) : Nat × PdfT :=
  match dget link s.uris with
  | some id => (id, s)
  | none =>
    let r := s.base.addDict [(kType, .bytes b!"/Action"), (.str c!"S", .bytes b!"/URI"), (.str c!"URI", .str link)]
    (r.1, { s with base := r.2, uris := dset link r.1 s.uris })

/-- pdf.py:616-631 -/
def PdfT.addUris (E : PdfEnv) (s : PdfT) (x y : Rat) (link : Str) (rects : List IdRect) : PdfT :=
  let r := s.uriId link
  r.2.onPage fun p => rects.foldl (fun p q => p.addAnnot (.link r.1 (placeRect E.rnd x y q))) p

/-- pdf.py:632-638 -/
def PdfT.addOutline (E : PdfEnv) (s : PdfT) (data : Str) : Except PyErr PdfT :=
  match E.json data with
  | none => .error .valueError
  | some (level, text, label) => match insertOutline s.outlines level text label with
    | .error e => .error e
    | .ok o => .ok { s with outlines := o }

/-- one id, pdf.py:597-638 -/
def PdfT.addId (E : PdfEnv) (s : PdfT) (page : Page) (x y : Rat) (id : Str) (rects : List IdRect) : Except PyErr PdfT :=
  match rects with
  | [] => .ok s
  | d :: _ =>
    match afterPrefix c!"$label:" id with
    | some name => s.addLabel E page x y name d
    | none => match afterPrefix c!"$ref:" id with
      | some name => .ok (s.addRefs E x y name rects)
      | none => match afterPrefix c!"$uri:" id with
        | some link => .ok (s.addUris E x y link rects)
        | none => match afterPrefix c!"$outline:" id with
          | some data => s.addOutline E data
          | none => .ok s

/-- the loop over the ids, pdf.py:597-638; `page` is the current page (its object and width) -/
def PdfT.addIds (E : PdfEnv) (page : Page) (x y : Rat) : List (Str × List IdRect) → PdfT → Except PyErr PdfT
  | [], s => .ok s
  | (id, rects) :: l, s => match s.addId E page x y id rects with
    | .error e => .error e
    | .ok s => s.addIds E page x y l

/-- the moves at the end, pdf.py:640-643 -/
def movePage (move : Str) (width height : Rat) (p : Page) : Page :=
  let p := if move = c!"bottom" then p.setY (p.y + height) else p
  if move = c!"next" then { p with x := p.x + width } else p

/-- `_add_text`, pdf.py:579-643 -/
def PdfT.addText (E : PdfEnv) (F : NumFmt) (p : FProc) (s : PdfT) (x y width height : Rat) (text graphics : Str)
    (used : List FKey) (ids : List (Str × List IdRect)) (move : Str) : Except PyErr (FProc × PdfT) :=
  match s.pages[s.pageIndex]? with
  | none => .error .indexError
  | some page => match page.addStr (paragraphStream F x y text graphics) with
    | .error e => .error e
    | .ok (_, page') => match (s.onPage fun _ => page').usedFonts E used p with
      | .error e => .error e
      | .ok (p', s') => match s'.addIds E page x y ids with
        | .error e => .error e
        | .ok s'' => .ok (p', s''.onPage (movePage move width height))

/-- `PDF.__init__`, pdf.py:168-181 -/
def PdfT.init (version : Str) : PdfT :=
  let r := (Base.new version []).addDict [(kType, .bytes b!"/Catalog")]
  ⟨{ r.2 with trailer := [(.str c!"Root", .ref r.1)] }, Fonts.new, [], [], 0, [], [], []⟩

/-- `PDF.__init__` with the default font, pdf.py:181 -/
def PdfT.new (E : PdfEnv) (p : FProc) (version : Str) : Except PyErr (FProc × PdfT) :=
  ((PdfT.init version).addOrGetFont E p (c!"Helvetica", c!"n")).map fun r => (r.2.1, r.2.2)

/-- the page objects of `add_page` (page.py:37-42, pdf.py:271-276); the margins are taken as given -/
def PdfT.addPage (s : PdfT) (w h top bottom left right : Rat) : PdfT :=
  let r := s.base.addDict [(kFilter, .bytes b!"/FlateDecode"), (kStream, .dict [])]
  let q := r.2.addDict [(kType, .bytes b!"/Page"), (kContents, .ref r.1), (kResources, .dict [])]
  { s with base := q.2, pages := s.pages ++ [Page.new q.1 w h top bottom left right], pageIndex := s.pages.length }

/-- the property `mode` of `PDFState`, text.py:25-35 -/
def stateMode (s : Fonts) (family : Str) (bold italic : Bool) : Str :=
  let m : Str := (if bold then c!"b" else []) ++ (if italic then c!"i" else [])
  let m := if m = [] then c!"n" else m
  if isStandard family then match dget family s.fonts with
    | some fam => match dget m fam with
      | some _ => m
      | none => c!"n"
    | none => m
  else m

end Verif
