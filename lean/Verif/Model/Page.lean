import Verif.PyDict
import Verif.Model.Margin
import Verif.Model.Graphics
/-! Model of `pdfme/page.py` and of the page set-up of `pdfme/pdf.py`. Numbers are rationals. -/
namespace Verif

/-- an annotation dict as built by `add_link`/`add_reference`, page.py:104-146 -/
inductive Annot
  | link (action : Nat) (rect : List Rat)
  | dest (name : Str) (rect : List Rat)
  deriving DecidableEq

/-- `PDFPage`, page.py:25-45. `objId` is the id of the page object (the stream object has the id
before it). -/
structure Page where
  objId : Nat
  width : Rat
  height : Rat
  marginTop : Rat
  marginBottom : Rat
  marginLeft : Rat
  marginRight : Rat
  contentWidth : Rat
  contentHeight : Rat
  x : Rat
  yUp : Rat                        -- `_y`, measured from the bottom
  stream : List (Nat × Bytes)      -- `self.stream['__stream__']`
  currentId : Nat
  fonts : List (Str × Nat)         -- `Resources/Font`
  xres : List (Str × Nat)          -- `Resources/XObject`
  xObjects : List (Nat × Str)      -- `self.x_objects`
  annots : List Annot

/-- `go_to_beginning`, page.py:60-69 -/
def Page.goToBeginning (p : Page) : Page :=
  { p with
    contentWidth := p.width - p.marginRight - p.marginLeft
    contentHeight := p.height - p.marginTop - p.marginBottom
    x := p.marginLeft
    yUp := p.height - p.marginTop }

/-- `__init__`, page.py:25-45 -/
def Page.new (objId : Nat) (width height top bottom left right : Rat) : Page :=
  Page.goToBeginning ⟨objId, width, height, top, bottom, left, right, 0, 0, 0, 0, [], 0, [], [], [], []⟩

/-- the property `y`, page.py:47-55 -/
def Page.y (p : Page) : Rat := p.height - p.yUp

/-- the setter of `y`, page.py:57-58 -/
def Page.setY (p : Page) (v : Rat) : Page := { p with yUp := p.height - v }

/-- `add` of bytes, page.py:71-88: the id returned and the page -/
def Page.addBytes (p : Page) (b : Bytes) : Nat × Page :=
  (p.currentId, { p with stream := dset p.currentId b p.stream, currentId := p.currentId + 1 })

/-- `add` of a string, page.py:83-84 -/
def Page.addStr (p : Page) (s : Str) : Except PyErr (Nat × Page) :=
  match encodeLatin s with
  | .ok b => .ok (p.addBytes b)
  | .error e => .error e

/-- `add_font`, page.py:90-102 -/
def Page.addFont (p : Page) (ref : Str) (id : Nat) : Page := { p with fonts := dset ref id p.fonts }

/-- `'Im{}'.format(n)` -/
def imName (n : Nat) : Str := c!"Im" ++ natStr n

/-- the registration part of `add_image`, page.py:161-165 -/
def Page.registerImage (p : Page) (id : Nat) : Page :=
  match dget id p.xObjects with
  | some _ => p
  | none =>
    let name := imName p.xres.length
    { p with xres := dset name id p.xres, xObjects := dset id name p.xObjects }

/-- the text of page.py:167-172 -/
def imageText (F : NumFmt) (w h x y : Rat) (name : Str) : Str :=
  c!" q " ++ F.fmt w ++ c!" 0 0 " ++ F.fmt h ++ c!" " ++ F.fmt x ++ c!" " ++ F.fmt y ++ c!" cm /" ++ name ++
    c!" Do Q"

/-- `add_image`, page.py:148-172 -/
def Page.addImage (F : NumFmt) (p : Page) (id : Nat) (w h : Rat) : Except PyErr Page :=
  let p := p.registerImage id
  match dget id p.xObjects with
  | none => .error .keyError
  | some name => match p.addStr (imageText F w h p.x p.yUp name) with
    | .ok r => .ok r.2
    | .error e => .error e

/-- `add_annot` through `add_link` and `add_reference`, page.py:104-146 -/
def Page.addAnnot (p : Page) (a : Annot) : Page := { p with annots := p.annots ++ [a] }

/-- the page defaults of a `PDF`, pdf.py:220-241 -/
structure PageSetup where
  width : Rat
  height : Rat
  rotate : Bool
  margin : List (Str × Rat)

/-- the arguments of `setup_page`/`add_page` -/
structure PageArgs where
  size : Option (SizeIn Rat)
  rotate : Option Bool
  margin : Option (MarginIn Rat)

/-- `page_width, page_height = get_page_size(page_size)`: unpacking anything but two numbers is a
`ValueError`. -/
def sizePair (thousandths : Nat → Rat) (s : SizeIn Rat) : Except PyErr (Rat × Rat) :=
  match getPageSize thousandths s with
  | .ok [w, h] => .ok (w, h)
  | .ok _ => .error .valueError
  | .error e => .error e

/-- thousandths of a point -/
def milli (n : Nat) : Rat := mkRat n 1000

/-- the page size an optional argument stands for -/
def sizeArg (w h : Rat) : Option (SizeIn Rat) → Except PyErr (Rat × Rat)
  | none => .ok (w, h)
  | some s => sizePair milli s

/-- `setup_page`, pdf.py:220-241 -/
def PageSetup.setup (pf : Str → Option Rat) (s : PageSetup) (a : PageArgs) : Except PyErr PageSetup :=
  match sizeArg s.width s.height a.size with
  | .error e => .error e
  | .ok wh =>
    match a.margin with
    | none => .ok ⟨wh.1, wh.2, a.rotate.getD s.rotate, s.margin⟩
    | some m => match parseMargin pf m with
      | .error e => .error e
      | .ok d => .ok ⟨wh.1, wh.2, a.rotate.getD s.rotate, d⟩

/-- the four margin arguments of `PDFPage` -/
def sideNames : List Str := [c!"top", c!"bottom", c!"left", c!"right"]

/-- `PDFPage(..., **{'margin_' + side: value ...})`, pdf.py:271-273: an unknown side is a `TypeError`,
a missing one is 0. -/
def Page.ofMargins (objId : Nat) (w h : Rat) (d : List (Str × Rat)) : Except PyErr Page :=
  if d.all (fun p => sideNames.contains p.1) then
    .ok (Page.new objId w h ((dget c!"top" d).getD 0) ((dget c!"bottom" d).getD 0)
      ((dget c!"left" d).getD 0) ((dget c!"right" d).getD 0))
  else .error .typeError

/-- the margins used by `add_page`, pdf.py:267-269 -/
def marginArg (pf : Str → Option Rat) (d : List (Str × Rat)) : Option (MarginIn Rat) →
    Except PyErr (List (Str × Rat))
  | none => .ok d
  | some m => match parseMargin pf m with
    | .ok e => .ok (dupdate d e)
    | .error e => .error e

/-- `add_page`, pdf.py:243-281: `runSections` stands for the `_content` calls of the running sections,
which draw on the page and move its cursor. -/
def PageSetup.addPage (pf : Str → Option Rat) (s : PageSetup) (objId : Nat) (a : PageArgs)
    (runSections : Page → Except PyErr Page) : Except PyErr Page :=
  match sizeArg s.width s.height a.size with
  | .error e => .error e
  | .ok (w, h) =>
    let wh := if (a.rotate = none ∧ s.rotate = true) ∨ a.rotate = some true then (h, w) else (w, h)
    match marginArg pf s.margin a.margin with
    | .error e => .error e
    | .ok d => match Page.ofMargins objId wh.1 wh.2 d with
      | .error e => .error e
      | .ok p => match runSections p with
        | .error e => .error e
        | .ok p => .ok p.goToBeginning

end Verif
