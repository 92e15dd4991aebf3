import Verif.Model.PdfParts
import Verif.Model.NameTree
/-! Model of `PDF.output` (pdf.py:1058-1072) on a document with its pages, labels, links and outlines.

The parts of a page that the code keeps in the dicts of `PDFBase.content` (the portions of its stream, its
resources and annotations) are in the model in the `Page`; `Page.flush` puts them into the dicts. The order
of `Font` and `XObject` inside `Resources` is fixed here (in the code it is that of their first use). -/
namespace Verif

def kAnnots : Key := .str c!"Annots"
def kFont : Key := .str c!"Font"
def kXObject : Key := .str c!"XObject"
def kRect : Key := .str c!"Rect"

/-- the annotation dict, page.py:104-146 -/
def Annot.obj (num : Rat → Obj) : Annot → Obj
  | .link action rect => .dict [(kType, .bytes b!"/Annot"), (.str c!"Subtype", .bytes b!"/Link"), (.str c!"A", .ref action),
      (.str c!"H", .bytes b!"/N"), (kRect, .seq (rect.map num))]
  | .dest name rect => .dict [(kType, .bytes b!"/Annot"), (.str c!"Subtype", .bytes b!"/Link"), (.str c!"Dest", .str name),
      (kRect, .seq (rect.map num))]

/-- a part of `Resources`, there once something was put into it (page.py:101-102, 161-165) -/
def resPart (k : Key) (l : List (Str × Nat)) : List (Key × Obj) :=
  if l = [] then [] else [(k, .dict (l.map fun q => (.str q.1, .ref q.2)))]

/-- `page['Resources']` -/
def Page.resources (p : Page) : Obj := .dict (resPart kFont p.fonts ++ resPart kXObject p.xres)

/-- `page['Annots']`, page.py:118-123 -/
def Page.setAnnots (num : Rat → Obj) (p : Page) (d : List (Key × Obj)) : List (Key × Obj) :=
  if p.annots = [] then d else dset kAnnots (.seq (p.annots.map (Annot.obj num))) d

/-- `stream['__stream__']`, page.py:85-87 -/
def Page.chunks (p : Page) : Obj := .dict (p.stream.map fun c => (.int c.1, .bytes c.2))

/-- the dicts of a page as `add`, `add_font`, `add_image` and `add_annot` leave them -/
def Page.flush (num : Rat → Obj) (p : Page) (b : Base) : Base :=
  (b.modify (p.objId - 1) (dset kStream p.chunks)).modify p.objId fun d => p.setAnnots num (dset kResources p.resources d)

/-- the objects of the document -/
def PdfT.objects (num : Rat → Obj) (s : PdfT) : Base := s.pages.foldl (fun b p => p.flush num b) s.base

/-- the value of a label, pdf.py:603-606 -/
def PDest.obj (num : Rat → Obj) (d : PDest) : Obj := .seq [.ref d.page, .bytes b!"/XYZ", num d.x, num d.y, num d.zoom]

/-- the trees of `output`, pdf.py:1067-1071; `level` is `outlines_level`. The recursion of the name tree is
bounded by the number of labels. -/
def PdfT.withTrees (num : Rat → Obj) (level : Int) (s : PdfT) : Except PyErr Base :=
  if s.pages.length = 0 then .error .exception
  else match buildPagesTree 1 1000 (s.objects num) (s.pages.map fun p => (p.objId, some (num p.width, num p.height))) with
    | .error e => .error e
    | .ok b => match buildDests 1 s.dests.length b (s.dests.map fun d => (d.1, d.2.obj num)) with
      | .error e => .error e
      | .ok b => .ok (buildOutlines 1 level b s.outlines)

/-- `output`, pdf.py:1058-1072 -/
def PdfT.output (num : Rat → Obj) (level : Int) (flate : Bytes → Bytes) (u1 u2 : Bytes) (s : PdfT) : Except PyErr OutRes :=
  (s.withTrees num level).map fun b => b.output flate u1 u2

end Verif
