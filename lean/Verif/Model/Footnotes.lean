import Verif.PyDict
import Verif.Py
/-! Model of the footnotes of `pdfme/document.py`.

Simplifications. The value of a document is a tree, without sharing. What a section adds to a page is a function of its state, of the context and of the height; a
state that is restored is the state that was saved (C37). Of the context only numbers are kept, the text `'0'` as 0. Of a paragraph on the page only its ids remain, each with
its number of rectangles. -/
namespace Verif

/-- the value of a document; `other` is a number or another object with its `str` -/
inductive DVal where
  | text (s : Str)
  | other (s : Str)
  | list (l : List DVal)
  | dict (d : List (Str × DVal))

/-- `'$footnote:'` -/
def notePrefix : Str := c!"$footnote:"

/-- `'$footnote:' + str(n)` -/
def noteName (n : Nat) : Str := notePrefix ++ natStr n

/-- `element['ids'].append(name)`, document.py:217-219; only lists have `append` -/
def addId (name : Str) : Option DVal → Except PyErr DVal
  | none => .ok (.list [.text name])
  | some (.list l) => .ok (.list (l ++ [.text name]))
  | some _ => .error .attributeError

/-- the footnote as a dict, document.py:224-229 -/
def asNote : DVal → DVal
  | .dict d => .dict d
  | .other s => .dict [(c!".", .text s)]
  | v => .dict [(c!".", v)]

/-- the mark of the footnote, document.py:217-221 -/
def asMark (n : Nat) (d : List (Str × DVal)) : Except PyErr DVal :=
  match addId (noteName n) (dget c!"ids" d) with
  | .error e => .error e
  | .ok ids => .ok (.dict (dset c!"var" (.text (noteName n)) (dset c!"style" (.text c!"$footnote") (dset c!"ids" ids d))))

mutual

/-- `_traverse_document_footnotes`, document.py:200-241: the changed value and the footnotes -/
def traverse : DVal → List DVal → Except PyErr (DVal × List DVal)
  | .list l, fs => match traverseList l fs with
    | .error e => .error e
    | .ok (l, fs) => .ok (.list l, fs)
  | .dict d, fs => match dget c!"footnote" d with
    | some f => match asMark fs.length d with
      | .error e => .error e
      | .ok m => .ok (m, fs ++ [asNote f])
    | none => match traverseDict d fs with
      | .error e => .error e
      | .ok (d, fs) => .ok (.dict d, fs)
  | v, fs => .ok (v, fs)

/-- document.py:213-214 -/
def traverseList : List DVal → List DVal → Except PyErr (List DVal × List DVal)
  | [], fs => .ok ([], fs)
  | v :: l, fs => match traverse v fs with
    | .error e => .error e
    | .ok (v, fs) => match traverseList l fs with
      | .error e => .error e
      | .ok (l, fs) => .ok (v :: l, fs)

/-- document.py:239-241 -/
def traverseDict : List (Str × DVal) → List DVal → Except PyErr (List (Str × DVal) × List DVal)
  | [], fs => .ok ([], fs)
  | (k, v) :: l, fs => match traverse v fs with
    | .error e => .error e
    | .ok (v, fs) => match traverseDict l fs with
      | .error e => .error e
      | .ok (l, fs) => .ok ((k, v) :: l, fs)

end

/-- a part of a section on a page -/
inductive NPart where
  | paragraph (ids : List (Str × Nat))
  | image
  deriving DecidableEq

/-- the context: the numbers of the marks -/
abbrev NCtx := List (Str × Nat)

/-- `self.footnotes[index]` for `total` footnotes: its number -/
def noteIndex (total : Nat) (i : Int) : Except PyErr Nat :=
  if 0 ≤ i ∧ i < total then .ok i.toNat
  else if i < 0 ∧ -(total : Int) ≤ i then .ok (total + i).toNat
  else .error .indexError

/-- `_check_footnote`, document.py:410-425: the footnotes of the page (their numbers) and the context -/
def checkNote (total : Nat) : List (Str × Nat) → List Nat × NCtx → Except PyErr (List Nat × NCtx)
  | [], s => .ok s
  | (id, rects) :: l, s =>
    if rects = 0 then checkNote total l s
    else if notePrefix.isPrefixOf id then
      match parseInt (id.drop 10) with
      | .error e => .error e
      | .ok i => match noteIndex total i with
        | .error e => .error e
        | .ok n => checkNote total l (s.1 ++ [n], dset id (s.1.length + 1) s.2)
    else checkNote total l s

/-- `_check_footnotes`, document.py:427-437 -/
def checkNotes (total : Nat) : List NPart → List Nat × NCtx → Except PyErr (List Nat × NCtx)
  | [], s => .ok s
  | .image :: l, s => checkNotes total l s
  | .paragraph ids :: l, s => match checkNote total ids s with
    | .error e => .error e
    | .ok s => checkNotes total l s

/-- the `list_text` of the footnotes, document.py:449-456 -/
def noteList (page : List Nat) : List (Str × Nat) := page.zipIdx.map fun (n, i) => (natStr (i + 1) ++ c!" ", n)

/-- `_process_footnotes`, document.py:464-476 -/
def processNotes (total : Nat) (parts : List NPart) (ctx : NCtx) : Except PyErr (Option (List (Str × Nat)) × NCtx) :=
  match checkNotes total parts ([], ctx) with
  | .error e => .error e
  | .ok ([], ctx) => .ok (none, ctx)
  | .ok (page, ctx) => .ok (some (noteList page), ctx)

/-- what the model is given: the contents of a section and the height of a list of footnotes -/
structure NEnv (κ : Type) where
  run : κ → NCtx → Rat → Except PyErr (κ × List NPart)
  height : List (Str × Nat) → Rat

/-- what is put on a page: the parts, the context their texts were made with, and the footnotes -/
structure NPage where
  parts : List NPart
  ctx : NCtx
  notes : Option (List (Str × Nat))

variable {κ : Type}

/-- `_add_content`, document.py:362-408; 10 is `footnotes_margin` -/
def addNotes (E : NEnv κ) (total : Nat) (k : κ) (ctx : NCtx) (height : Rat) : Except PyErr (κ × NCtx × NPage) :=
  match E.run k ctx height with
  | .error e => .error e
  | .ok (k1, parts) => match processNotes total parts ctx with
    | .error e => .error e
    | .ok (none, ctx1) => .ok (k1, ctx1, ⟨parts, ctx, none⟩)
    | .ok (some notes, ctx1) =>
      if height - 10 - 20 ≤ E.height notes then .error .exception
      else match E.run k ctx1 (height - E.height notes - 10) with
        | .error e => .error e
        | .ok (k2, parts) => match processNotes total parts ctx1 with
          | .error e => .error e
          | .ok (notes, ctx2) => .ok (k2, ctx2, ⟨parts, ctx1, notes⟩)

end Verif
