import Verif.PyDict
/-! # Model of `PDFText._recursive_content_parse` (text.py:1245-1353): nested content to flat parts

Simplifications: the strings and dicts of a style are taken parsed (`parse_style_str` is modelled in
`Model/StyleStr`, `process_style` returns the dict or the named one); numbers among the elements are taken
as their `str`; the label of an outline without label (a uuid) and the JSON text of an outline are given. -/
namespace Verif

/-- an outline of a dict: the uuid that is used when there is no label, and the JSON text for a label -/
structure ROutline where
  uuid : Str
  dumps : Str → Str

/-- a content dict without its elements -/
structure RHead (V : Type) where
  /-- `parse_style_str` of the dot key -/
  dot : List (Str × V)
  /-- `process_style` of the `style` key -/
  style : List (Str × V)
  var : Option Str
  ids : List Str
  label : Option Str
  ref : Option Str
  uri : Option Str
  outline : Option ROutline

/-- an element of a content list; `bad` is an object of another type -/
inductive RElem (V : Type)
  | str (s : Str)
  | node (hd : RHead V) (elems : List (RElem V))
  | bad

/-- a part of the flat content -/
inductive RPart (V : Type)
  | br
  | text (style : List (Str × V)) (text : Str) (ids : List Str) (var : Option Str)
  deriving DecidableEq

/-- `==` of style dicts -/
structure DictEq (V : Type) where
  eqv : List (Str × V) → List (Str × V) → Bool
  refl : ∀ a, eqv a a = true
  symm : ∀ a b, eqv a b = true → eqv b a = true
  trans : ∀ a b c, eqv a b = true → eqv b c = true → eqv a c = true

/-- `==` of parts -/
def RPart.same {V : Type} (E : DictEq V) : RPart V → RPart V → Bool
  | .br, .br => true
  | .text s t i v, .text s' t' i' v' => E.eqv s s' && decide (t = t') && decide (i = i') && decide (v = v')
  | _, _ => false

/-- `self.content.remove(part)`: the first part that is equal -/
def removePart {V : Type} (E : DictEq V) (p : RPart V) (content : List (RPart V)) : Except PyErr (List (RPart V)) :=
  if content.any (fun q => q.same E p) then .ok (content.eraseP fun q => q.same E p) else .error .valueError

/-- the local variables of a call: `text_part` (its text; the style, ids and var do not change),
`is_last_string`, and `self.content`. `text_part` is the last element of `self.content` when its text is
extended. -/
structure RSt (V : Type) where
  text : Str
  isLast : Bool
  content : List (RPart V)

/-- what the parts of a call have in common -/
structure REnv (V : Type) where
  style : List (Str × V)
  ids : List Str
  var : Option Str

/-- a part of a call -/
def REnv.part {V : Type} (e : REnv V) (t : Str) : RPart V := .text e.style t e.ids e.var

/-- `_new_text_part` with `last_part`, text.py:1237-1243 -/
def newPart {V : Type} (E : DictEq V) (e : REnv V) (s : RSt V) : Except PyErr (RSt V) :=
  (if s.text = [] then removePart E (e.part []) s.content else .ok s.content) >>= fun c =>
  .ok { s with text := [], content := c ++ [e.part []] }

/-- `text_part['text'] += t` -/
def addText {V : Type} (e : REnv V) (t : Str) (s : RSt V) : RSt V :=
  { s with text := s.text ++ t, content := s.content.dropLast ++ [e.part (s.text ++ t)] }

/-- the loop over `lines[1:]`, text.py:1337-1342 -/
def addLines {V : Type} (E : DictEq V) (e : REnv V) : List Str → RSt V → Except PyErr (RSt V)
  | [], s => .ok s
  | t :: l, s => do
    let s1 ← newPart E e { s with content := s.content ++ [.br] }
    addLines E e l (addText e t s1)

/-- a string element, text.py:1328-1343 -/
def parseStr {V : Type} (E : DictEq V) (e : REnv V) (x : Str) (s : RSt V) : Except PyErr (RSt V) :=
  if x = [] then .ok s
  else match splitOn '\n' x with
    | [] => .ok s
    | t :: l => (if s.isLast then .ok s else newPart E e s) >>= fun s1 => do
      let s2 ← addLines E e l (addText e t s1)
      .ok { s2 with isLast := true }

/-- the style and ids of a dict, text.py:1278-1321 -/
def RHead.env {V : Type} (hd : RHead V) (parent : List (Str × V)) (ids : List Str) : REnv V :=
  { style := dupdate (dupdate parent hd.dot) hd.style
    ids := ids ++ hd.ids
      ++ (match hd.label with | some l => [c!"$label:" ++ l] | none => [])
      ++ (match hd.ref with | some l => [c!"$ref:" ++ l] | none => [])
      ++ (match hd.uri with | some l => [c!"$uri:" ++ l] | none => [])
      ++ (match hd.outline with
        | some o => (match hd.label with
          | none => [c!"$label:" ++ o.uuid, c!"$outline:" ++ o.dumps o.uuid]
          | some l => [c!"$outline:" ++ o.dumps l])
        | none => [])
    var := hd.var }

/-- the end of a call, text.py:1352-1353 -/
def endNode {V : Type} (E : DictEq V) (e : REnv V) (s : RSt V) : Except PyErr (List (RPart V)) :=
  if s.text = [] then removePart E (e.part []) s.content else .ok s.content

mutual
/-- an element, text.py:1325-1350, and a dict, text.py:1245-1353. The ids are extended while the part is
already in `self.content`, which is the same object. -/
def parseContentElem {V : Type} (E : DictEq V) (e : REnv V) : RElem V → RSt V → Except PyErr (RSt V)
  | .str x, s => parseStr E e x s
  | .bad, _ => .error .typeError
  | .node hd elems, s =>
    let e' := hd.env e.style e.ids
    let s0 : RSt V := { text := [], isLast := false, content := s.content ++ [e'.part []] }
    (match hd.var with
      | some _ => parseStr E e' ['0'] s0
      | none => parseContent E e' elems s0) >>= fun s1 => do
    let c ← endNode E e' s1
    .ok { s with content := c, isLast := false }

/-- the loop over the elements, text.py:1325-1350 -/
def parseContent {V : Type} (E : DictEq V) (e : REnv V) : List (RElem V) → RSt V → Except PyErr (RSt V)
  | [], s => .ok s
  | x :: l, s => do
    let s1 ← parseContentElem E e x s
    parseContent E e l s1
end

/-- `PDFText.__init__`, text.py:1204-1217: the flat content of a content dict -/
def richParse {V : Type} (E : DictEq V) (defaults : List (Str × V)) (hd : RHead V) (elems : List (RElem V)) :
    Except PyErr (List (RPart V)) := do
  let s ← parseContentElem E ⟨defaults, [], none⟩ (.node hd elems) { text := [], isLast := false, content := [] }
  .ok s.content

end Verif
