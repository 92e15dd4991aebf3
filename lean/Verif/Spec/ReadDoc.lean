import Verif.Spec.Reader
/-!
# Specification: reading a document (ISO 32000-1, 7.7, 7.9.6, 12.3, 12.5)

What a PDF reader shows of an open file: the pages in order with their contents, resources and links, the
named destinations and the outline. Executable, written from the PDF standard and independent of the
model. `depth` bounds how far the trees are followed, so that a reader ends on every file.
-/
namespace Verif.Spec

/-- the dictionary with object number `n` (that of a stream too) -/
def PdfFile.dict (f : PdfFile) (n : Nat) : Option (List (Bytes × PObj)) :=
  match f.object n with
  | some (.dict d, _) => some d
  | _ => none

/-- the number of the object a reference stands for -/
def PObj.target : PObj → Option Nat
  | .ref (.ofNat n) 0 => some n
  | _ => none

/-- an entry that is a reference -/
def refEntry (k : Bytes) (d : List (Bytes × PObj)) : Option Nat := (lookup k d).bind PObj.target

/-- is the entry the name? -/
def isName (k x : Bytes) (d : List (Bytes × PObj)) : Bool :=
  match lookup k d with
  | some (.name y) => y = x
  | _ => false

/-- the catalog (7.7.2) -/
def PdfFile.catalog (f : PdfFile) : Option (List (Bytes × PObj)) :=
  match (refEntry b!"Root" f.trailer).bind f.dict with
  | some d => if isName b!"Type" b!"Catalog" d then some d else none
  | none => none

/-- all results, if there is one for every element -/
def allSome {α β : Type} (g : α → Option β) : List α → Option (List β)
  | [] => some []
  | a :: l => match g a, allSome g l with
    | some b, some r => some (b :: r)
    | _, _ => none

/-- The pages below a node of the page tree, from left to right (7.7.3). Every node must name its parent,
and `Count` must be the number of pages below. -/
def PdfFile.leaves (f : PdfFile) : Nat → Option Nat → Nat → Option (List Nat)
  | 0, _, _ => none
  | depth + 1, par, id => match f.dict id with
    | none => none
    | some d =>
      if refEntry b!"Parent" d ≠ par then none
      else if isName b!"Type" b!"Page" d then some [id]
      else if isName b!"Type" b!"Pages" d then
        match lookup b!"Kids" d, lookup b!"Count" d with
        | some (.arr kids), some (.int n) =>
          match allSome (fun k => k.target.bind fun i => f.leaves depth (some id) i) kids with
          | some ls => if n = ls.flatten.length then some ls.flatten else none
          | none => none
        | _, _ => none
      else none

/-- the pages of the document -/
def PdfFile.pages (f : PdfFile) (depth : Nat) : Option (List Nat) :=
  match f.catalog with
  | some d => (refEntry b!"Pages" d).bind fun n => f.leaves depth none n
  | none => none

/-- the contents of a page, unfiltered (7.7.3.3, 7.8.2) -/
def PdfFile.contents (f : PdfFile) (inflate : Bytes → Bytes) (page : List (Bytes × PObj)) : Option Bytes :=
  match (refEntry b!"Contents" page).bind f.object with
  | some (.dict d, some data) => decodeStream inflate d data
  | _ => none

/-- the object of a resource: `kind` is `Font`, `XObject`, … (7.8.3) -/
def resource (kind name : Bytes) (page : List (Bytes × PObj)) : Option Nat :=
  match lookup b!"Resources" page with
  | some (.dict r) => match lookup kind r with
    | some (.dict e) => refEntry name e
    | _ => none
  | _ => none

inductive Action
  | uri (u : Bytes)
  | goto (name : Bytes)
  deriving DecidableEq

/-- a link: its rectangle and where it leads (12.5.6.5) -/
structure Link where
  rect : List PObj
  action : Action

def PdfFile.readLink (f : PdfFile) : PObj → Option Link
  | .dict d =>
    if isName b!"Type" b!"Annot" d && isName b!"Subtype" b!"Link" d then
      match lookup b!"Rect" d with
      | some (.arr r) => match lookup b!"Dest" d with
        | some (.str n) => some ⟨r, .goto n⟩
        | some _ => none
        | none => match (refEntry b!"A" d).bind f.dict with
          | some a => if isName b!"S" b!"URI" a then
              match lookup b!"URI" a with
              | some (.str u) => some ⟨r, .uri u⟩
              | _ => none
            else none
          | none => none
      | _ => none
    else none
  | _ => none

/-- the links of a page -/
def PdfFile.links (f : PdfFile) (page : List (Bytes × PObj)) : Option (List Link) :=
  match lookup b!"Annots" page with
  | none => some []
  | some (.arr l) => allSome f.readLink l
  | some _ => none

/-- lexicographic order (7.9.6) -/
def bytesLe : Bytes → Bytes → Bool
  | [], _ => true
  | _ :: _, [] => false
  | a :: as, b :: bs => if a = b then bytesLe as bs else a < b

/-- the value after the key in a list of keys and values -/
def findPair (key : Bytes) : List PObj → Option PObj
  | .str k :: v :: l => if k = key then some v else findPair key l
  | _ => none

/-- do the limits of the kid contain the key? -/
def PdfFile.inLimits (f : PdfFile) (key : Bytes) (kid : PObj) : Bool :=
  match kid.target.bind f.dict with
  | some d => match lookup b!"Limits" d with
    | some (.arr [.str lo, .str hi]) => bytesLe lo key && bytesLe key hi
    | _ => false
  | none => false

/-- the lookup in a name tree -/
def PdfFile.findName (f : PdfFile) : Nat → Nat → Bytes → Option PObj
  | 0, _, _ => none
  | depth + 1, id, key => match f.dict id with
    | none => none
    | some d => match lookup b!"Names" d with
      | some (.arr l) => findPair key l
      | _ => match lookup b!"Kids" d with
        | some (.arr kids) => match kids.find? (f.inLimits key) with
          | some k => k.target.bind fun i => f.findName depth i key
          | none => none
        | _ => none

/-- the destination with a name (12.3.2.3) -/
def PdfFile.dest (f : PdfFile) (depth : Nat) (key : Bytes) : Option PObj :=
  match f.catalog with
  | some d => match lookup b!"Names" d with
    | some (.dict e) => (refEntry b!"Dests" e).bind fun n => f.findName depth n key
    | _ => none
  | none => none

/-- an item of the outline with what is below it -/
inductive Bookmark
  | mk (title dest : Bytes) (kids : List Bookmark)

/-- The items from `id` to `last` (12.3.3); `Parent` and `Prev` must lead back. -/
def PdfFile.bookmarks (f : PdfFile) : Nat → Nat → Option Nat → Nat → Nat → Option (List Bookmark)
  | 0, _, _, _, _ => none
  | depth + 1, parent, prev, id, last => match f.dict id with
    | none => none
    | some d =>
      if refEntry b!"Parent" d ≠ some parent ∨ refEntry b!"Prev" d ≠ prev then none
      else match lookup b!"Title" d, lookup b!"Dest" d with
        | some (.str t), some (.str l) =>
          let kids := match refEntry b!"First" d, refEntry b!"Last" d with
            | none, none => some []
            | some a, some b => f.bookmarks depth id none a b
            | _, _ => none
          let rest := match refEntry b!"Next" d with
            | none => if id = last then some [] else none
            | some n => f.bookmarks depth parent (some id) n last
          match kids, rest with
          | some ks, some r => some (.mk t l ks :: r)
          | _, _ => none
        | _, _ => none

/-- the outline of the document -/
def PdfFile.outline (f : PdfFile) (depth : Nat) : Option (List Bookmark) :=
  match f.catalog with
  | some d => match refEntry b!"Outlines" d with
    | none => some []
    | some n => match f.dict n with
      | some o => match refEntry b!"First" o, refEntry b!"Last" o with
        | some a, some b => f.bookmarks depth n none a b
        | _, _ => none
      | none => none
  | none => none

end Verif.Spec
