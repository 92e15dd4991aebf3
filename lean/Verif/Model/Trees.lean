import Verif.Model.Base
/-!
# Model of the page tree, the name tree and the outline tree built by `PDF.output`
(pdf.py:909-1056)

Objects are the dicts of `Base.content`; a `PDFObject` held by the code is represented by its id, and
`obj[key] = value` by `Base.modify`.
-/
namespace Verif

/-- the dict with object number `id` -/
def Base.dictAt (b : Base) (id : Nat) : Option (List (Key × Obj)) :=
  match id with
  | 0 => none
  | n + 1 => match b.content[n]? with
    | some ⟨_, .dict d⟩ => some d
    | _ => none

/-- change the dict of the object in place -/
def PDFObj.mapDict (f : List (Key × Obj) → List (Key × Obj)) : PDFObj → PDFObj
  | ⟨i, .dict d⟩ => ⟨i, .dict (f d)⟩
  | o => o

/-- mutation of the dict of an object through a `PDFObject`, parser.py:24-31 -/
def Base.modify (b : Base) (id : Nat) (f : List (Key × Obj) → List (Key × Obj)) : Base :=
  match id with
  | 0 => b
  | n + 1 => { b with content := b.content.modify n (PDFObj.mapDict f) }

/-- `base.add` of a dict: the id and the new state (base.py:65-91) -/
def Base.addDict (b : Base) (d : List (Key × Obj)) : Nat × Base :=
  (b.count, { b with content := b.content ++ [⟨b.count, .dict d⟩], count := b.count + 1 })

/-- `d[k].append(v)` -/
def dictAppend (k : Key) (v : Obj) (d : List (Key × Obj)) : List (Key × Obj) :=
  match dget k d with
  | some (.seq l) => dset k (.seq (l ++ [v])) d
  | _ => d

/-- `d[k] += 1` -/
def dictIncr (k : Key) (d : List (Key × Obj)) : List (Key × Obj) :=
  match dget k d with
  | some (.int i) => dset k (.int (i + 1)) d
  | _ => d

def kType : Key := .str c!"Type"
def kKids : Key := .str c!"Kids"
def kCount : Key := .str c!"Count"
def kParent : Key := .str c!"Parent"
def kMediaBox : Key := .str c!"MediaBox"
def kPages : Key := .str c!"Pages"

/-- the node added by pdf.py:928 -/
def pagesNode : List (Key × Obj) := [(kType, .bytes b!"/Pages"), (kKids, .seq []), (kCount, .int 0)]

/-- pdf.py:921-924, only on the first level -/
def setMedia (b : Base) (id : Nat) : Option (Obj × Obj) → Base
  | some (w, h) => b.modify id (dset kMediaBox (.seq [.int 0, .int 0, w, h]))
  | none => b

/-- pdf.py:926-930 -/
def newNode (b : Base) (nodes : List Nat) (count : Nat) : Base × List Nat × Nat :=
  if count % 6 = 0 then
    let r := b.addDict pagesNode
    (r.2, nodes ++ [r.1], count + 1)
  else (b, nodes, count)

/-- the loop of pdf.py:918-935; the entries are the ids with the sizes on the first level -/
def pagesLoop (b : Base) (nodes : List Nat) (count : Nat) : List (Nat × Option (Obj × Obj)) →
    Base × List Nat × Nat
  | [] => (b, nodes, count)
  | (id, size) :: l =>
    let r := newNode (setMedia b id size) nodes count
    let parent := r.2.1.getLastD 0
    let b := r.1.modify id (dset kParent (.ref parent))
    let b := b.modify parent (fun d => dictIncr kCount (dictAppend kKids (.ref id) d))
    pagesLoop b r.2.1 r.2.2 l

/-- `_build_pages_tree`, pdf.py:909-940. `fuel` bounds the depth of the recursion of pdf.py:940;
without it Python raises `RecursionError`. -/
def buildPagesTree (root : Nat) : Nat → Base → List (Nat × Option (Obj × Obj)) → Except PyErr Base
  | 0, _, _ => .error .recursion
  | fuel + 1, b, l =>
    let r := pagesLoop b [] 0 l
    if r.2.2 = 1 then .ok (r.1.modify root (dset kPages (.ref (r.2.1.headD 0))))
    else buildPagesTree root fuel r.1 (r.2.1.map fun id => (id, none))

end Verif

namespace Verif

/-- the parts of a `PDF` the page tree depends on: `base`, `pages` as (object id, width, height); the
catalog is object 1 (pdf.py:174-175) -/
structure PdfDoc where
  base : Base
  pages : List (Nat × Obj × Obj)

/-- pdf.py:168-176 -/
def PdfDoc.new (version : Str) : PdfDoc :=
  let r := (Base.new version []).addDict [(kType, .bytes b!"/Catalog")]
  ⟨{ r.2 with trailer := [(.str c!"Root", .ref r.1)] }, []⟩

def kContents : Key := .str c!"Contents"
def kResources : Key := .str c!"Resources"

/-- the objects of a new `PDFPage` (page.py:39-42), appended to `pages` (pdf.py:275) -/
def PdfDoc.addPage (s : PdfDoc) (w h : Obj) : PdfDoc :=
  let r := s.base.addDict [(kFilter, .bytes b!"/FlateDecode"), (kStream, .dict [])]
  let q := r.2.addDict [(kType, .bytes b!"/Page"), (kContents, .ref r.1), (kResources, .dict [])]
  ⟨q.2, s.pages ++ [(q.1, w, h)]⟩

/-- the page tree part of `output`, pdf.py:1067-1069 -/
def PdfDoc.outputPages (s : PdfDoc) : Except PyErr PdfDoc :=
  if s.pages = [] then .error .exception
  else match buildPagesTree 1 1000 s.base (s.pages.map fun p => (p.1, some p.2)) with
    | .error e => .error e
    | .ok b => .ok { s with base := b }

/-- what happens to the objects of a document between outputs: pages, other objects (fonts, images,
actions, tree nodes) and updates of entries other than `Type` (resources, annotations, name trees, …) -/
inductive DocOp
  | addPage (w h : Obj)
  | addObject (d : List (Key × Obj))
  | setEntry (id : Nat) (k : Key) (v : Obj)
  | output

def PdfDoc.op (s : PdfDoc) : DocOp → Except PyErr PdfDoc
  | .addPage w h => .ok (s.addPage w h)
  | .addObject d => .ok { s with base := (s.base.addDict d).2 }
  | .setEntry id k v => .ok { s with base := s.base.modify id (dset k v) }
  | .output => s.outputPages

def PdfDoc.run (s : PdfDoc) : List DocOp → Except PyErr PdfDoc
  | [] => .ok s
  | o :: l => match s.op o with
    | .error e => .error e
    | .ok s => s.run l

end Verif
