import Verif.Model.StyleStr
/-! Model of how the elements of content boxes, groups and tables are told apart: `parse_element` and `process` (content.py:783-826),
`process_group_element` (content.py:1086-1113), `get_cell_style` and `add_cell` (table.py:674-712, 794-815).

Simplifications: only the keys of a dict matter; what is done with an element after that is modelled elsewhere. -/
namespace Verif

/-- an element as it is given: a string, list or tuple, a dict with its keys, or another object with its `str` (a number, `None`) -/
inductive ElIn
  | str (s : Str)
  | list
  | tuple
  | dict (keys : List Str)
  | none
  | other (text : Str)
  deriving DecidableEq

/-- the methods an element may be given to -/
inductive ElKind
  | text
  | image
  | table
  | content
  | group
  deriving DecidableEq, Repr

/-- what `parse_element` returns: a dict with its keys, or a string -/
inductive Parsed
  | dict (keys : List Str)
  | str (s : Str)

/-- `PDFContentPart.parse_element`, content.py:783-794; `text` is `str(element)` -/
def parseElement : ElIn → Parsed
  | .none => .str c!"None"
  | .other text => .str text
  | .str _ => .dict [c!"."]
  | .list => .dict [c!"."]
  | .tuple => .dict [c!"."]
  | .dict keys => .dict keys

/-- `key.startswith('.')` for some key -/
def hasDot (keys : List Str) : Bool := keys.any fun k => k.head? == some '.'

/-- `PDFContentPart.process`, content.py:812-826; a string has no keys (content.py:1076). `none` is returned for a dict that no branch takes. -/
def processKind (e : ElIn) : Except PyErr (Option ElKind) :=
  match parseElement e with
  | .str _ => .error .attributeError
  | .dict keys => .ok <|
    if hasDot keys || keys.contains c!"paragraph" then some .text
    else if keys.contains c!"image" then some .image
    else if keys.contains c!"table" || keys.contains c!"table_delayed" then some .table
    else if keys.contains c!"content" then some .content
    else if keys.contains c!"group" then some .group
    else none

/-- an element of a content box: `ret.get` fails when `process` returned `None` (content.py:512) -/
def boxKind (e : ElIn) : Except PyErr ElKind :=
  match processKind e with
  | .error e => .error e
  | .ok none => .error .attributeError
  | .ok (some k) => .ok k

/-- `process_group_element`, content.py:1090-1113 -/
def groupKind (e : ElIn) : Except PyErr ElKind :=
  match parseElement e with
  | .str _ => .error .attributeError
  | .dict keys =>
    if hasDot keys || keys.contains c!"paragraph" then .ok .text
    else if keys.contains c!"image" then .ok .image
    else if keys.contains c!"table" || keys.contains c!"table_delayed" then .ok .table
    else .error .exception

/-- the keys of the dict that `get_cell_style` makes of a cell, table.py:691-702 -/
def cellKeys : ElIn → List Str
  | .none => [c!"."]
  | .other _ => [c!"."]
  | .str _ => [c!"."]
  | .list => [c!"."]
  | .tuple => [c!"."]
  | .dict keys => keys

/-- `add_cell`, table.py:794-815, for a cell that was not delayed; `none`: nothing is shown and the cell stays unfinished -/
def cellKind (e : ElIn) : Option ElKind :=
  let keys := cellKeys e
  if hasDot keys then some .text
  else if keys.contains c!"image" then some .image
  else if keys.contains c!"content" then some .content
  else if keys.contains c!"table" then some .table
  else none

end Verif
