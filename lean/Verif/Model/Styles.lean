import Verif.PyDict
import Verif.Model.StyleStr
/-! Model of how the style of a paragraph, image, table or cell is found: `process_style` (utils.py:32-52), `get_element_styles`
(content.py:1075-1084), the style of a `PDFContentPart` (content.py:341-344), of a `PDFTable` (table.py:193-194, 251-259) and of its cells
(`get_cell_style`, table.py:674-717), and the default styles of `PDF` (pdf.py:703-717, 733-738, 817-821).

Simplifications. A style is the list of its items; values are of any type. `copy` gives an equal value (C54). Which of the kinds an element is
has been read off its keys already: an element with a key that starts with a dot is a text whatever else it has (content.py:815-817,
table.py:798). The rows of a table are one list of cells, merged cells (`None`) left out. The colour of the default border is what is given for
it. The keys `shrink` and `min_height`, which a group writes into the styles of its images, are left out. -/
namespace Verif

variable {V : Type}

/-- what the key `style` of an element can be; `none` when it is absent or `None` -/
inductive StyleArg (V : Type)
  | none
  | name (s : Str)
  | dict (d : List (Str × V))
  | other

/-- what the functions below need: the parser of style strings with the place of its values among all values, `None`, numbers, and
`pdf.formats` (`none` without a `pdf`) -/
structure StyleCtx (V : Type) where
  env : StyleEnv
  inj : StyleVal → V
  vnone : V
  num : Rat → V
  str : Str → V
  formats : Option (List (Str × List (Str × V)))

/-- `process_style`, utils.py:32-52 -/
def processStyle (X : StyleCtx V) : StyleArg V → Except PyErr (List (Str × V))
  | .none => .ok []
  | .name s => match X.formats with
    | none => .ok []
    | some fs => match dget s fs with
      | some d => .ok d
      | none => .error .keyError
  | .dict d => .ok d
  | .other => .error .exception

/-- `parse_style_str(keys[0][1:], fonts)` when there is such a key -/
def dotStyle (X : StyleCtx V) : Option Str → Except PyErr (List (Str × V))
  | none => .ok []
  | some s => (parseStyleStr X.env s).map fun d => d.map fun p => (p.1, X.inj p.2)

/-- `get_element_styles`, content.py:1075-1084 -/
def elementStyles (X : StyleCtx V) (dot : Option Str) (st : StyleArg V) (inherited : List (Str × V)) :
    Except PyErr (List (Str × V) × List (Str × V)) := do
  let d ← dotStyle X dot
  let e ← processStyle X st
  .ok (dupdate (dupdate (dupdate [] inherited) d) e, e)

/-- the style of a `PDFContentPart`, content.py:341-344 -/
def partStyle (X : StyleCtx V) (inherited : List (Str × V)) (st : StyleArg V) : Except PyErr (List (Str × V)) := do
  let e ← processStyle X st
  .ok (dupdate (dupdate [(c!"margin_bottom", X.num 5)] inherited) e)

/-- `d.pop(k, default)`: the value and what is left -/
def dpop (k : Str) (default : V) (d : List (Str × V)) : V × List (Str × V) :=
  ((dget k d).getD default, d.filter fun p => p.1 ≠ k)

/-- the default border and the style of a table -/
structure TableStyle (V : Type) where
  width : V
  color : V
  border : V
  style : List (Str × V)

/-- table.py:193-194 and `set_default_border`, table.py:251-259 -/
def tableStyle (X : StyleCtx V) (st : StyleArg V) : Except PyErr (TableStyle V) := do
  let e ← processStyle X st
  let s := dupdate [(c!"cell_margin", X.num 5), (c!"cell_fill", X.vnone)] e
  let (w, s) := dpop c!"border_width" (X.num (1/2)) s
  let (c, s) := dpop c!"border_color" (X.num 0) s
  let (b, s) := dpop c!"border_style" (X.str c!"solid") s
  .ok ⟨w, c, b, s⟩

/-- the style of a cell: its margins and its fill -/
structure CellLook (V : Type) where
  top : V
  right : V
  bottom : V
  left : V
  fill : V

/-- `get_cell_style` of a cell that was not begun on an earlier page, table.py:688-717 -/
def cellStyleOf (X : StyleCtx V) (dot : Option Str) (st : StyleArg V) (table : List (Str × V)) :
    Except PyErr (List (Str × V) × CellLook V) := do
  let d ← dotStyle X dot
  let e ← processStyle X st
  let s := dupdate (dupdate table d) e
  let (t, s) := dpop c!"cell_margin_top" ((dget c!"cell_margin" s).getD X.vnone) s
  let (r, s) := dpop c!"cell_margin_right" ((dget c!"cell_margin" s).getD X.vnone) s
  let (b, s) := dpop c!"cell_margin_bottom" ((dget c!"cell_margin" s).getD X.vnone) s
  let (l, s) := dpop c!"cell_margin_left" ((dget c!"cell_margin" s).getD X.vnone) s
  let (_, s) := dpop c!"cell_margin" X.vnone s
  let (f, s) := dpop c!"cell_fill" X.vnone s
  .ok (s, ⟨t, r, b, l, f⟩)

/-- `TEXT_DEFAULTS`, text.py:7 -/
def textDefaults (X : StyleCtx V) : List (Str × V) :=
  [(c!"f", X.str c!"Helvetica"), (c!"c", X.num (1/10)), (c!"s", X.num 11), (c!"r", X.num 0), (c!"bg", X.vnone)]

/-- the style of the text of a paragraph whose element has got the style `style` (`element['style'] = style`, content.py:859, table.py:859),
text.py:1278-1294 with the defaults of text.py:1213 -/
def textStyle (X : StyleCtx V) (dot : Option Str) (style : List (Str × V)) : Except PyErr (List (Str × V)) := do
  let d ← dotStyle X dot
  .ok (dupdate (dupdate (textDefaults X) d) style)

/-- an element of a content box, or a cell of a table -/
inductive STree (V : Type)
  | text (dot : Str) (st : StyleArg V)
  | image (st : StyleArg V)
  | table (st : StyleArg V) (cells : List (STree V))
  | box (st : StyleArg V) (elems : List (STree V))
  | group (st : StyleArg V) (elems : List (STree V))

/-- what comes out, in the order in which it is made: the style a paragraph has (which `PARAGRAPH_PROPS` are read from, too) and that of its
text, the style of an image of a content box, the border of a table, and the margins and fill of a cell -/
inductive SEvent (V : Type)
  | text (style : List (Str × V)) (final : List (Str × V))
  | image (style : List (Str × V))
  | table (t : TableStyle V)
  | cell (c : CellLook V)

mutual
/-- the elements of a content box one after the other -/
def walkElems (X : StyleCtx V) (inherited : List (Str × V)) : List (STree V) → Except PyErr (List (SEvent V))
  | [] => .ok []
  | t :: l => do
    let a ← walkElem X inherited t
    let b ← walkElems X inherited l
    .ok (a ++ b)

/-- `process`, content.py:796-826, with `process_text` (content.py:855-863), `process_table` (content.py:983-993) and `process_child`
(content.py:1036-1039) -/
def walkElem (X : StyleCtx V) (inherited : List (Str × V)) : STree V → Except PyErr (List (SEvent V))
  | .text dot st => do
    let (s, _) ← elementStyles X (some dot) st inherited
    let f ← textStyle X (some dot) s
    .ok [.text s f]
  | .image st => do
    let (s, _) ← elementStyles X none st inherited
    .ok [.image s]
  | .table st cells => do
    let (s, _) ← elementStyles X none st inherited
    let t ← tableStyle X (.dict s)
    let a ← walkCells X t.style cells
    .ok (.table t :: a)
  | .box st elems => do
    let (s, _) ← elementStyles X none st inherited
    let s ← partStyle X s st
    walkElems X s elems
  | .group st elems => do
    let (s, _) ← elementStyles X none st inherited
    walkGroup X s elems

/-- the elements of a group, content.py:1136-1171 -/
def walkGroup (X : StyleCtx V) (inherited : List (Str × V)) : List (STree V) → Except PyErr (List (SEvent V))
  | [] => .ok []
  | t :: l => do
    let a ← walkGroupElem X inherited t
    let b ← walkGroup X inherited l
    .ok (a ++ b)

/-- `process_group_element`, content.py:1086-1113. `process_group` calls it twice (content.py:1144-1146 and 1166-1169), and the first time a
text has its `style` replaced (content.py:859). -/
def walkGroupElem (X : StyleCtx V) (inherited : List (Str × V)) : STree V → Except PyErr (List (SEvent V))
  | .text dot st => do
    let (s1, _) ← elementStyles X (some dot) st inherited
    let (s, _) ← elementStyles X (some dot) (.dict s1) inherited
    let f ← textStyle X (some dot) s
    .ok [.text s f]
  | .image st => do
    let (s, _) ← elementStyles X none st inherited
    .ok [.image s]
  | .table st cells => do
    let (s, _) ← elementStyles X none st inherited
    let t ← tableStyle X (.dict s)
    let a ← walkCells X t.style cells
    .ok (.table t :: a)
  | .box _ _ => .error .exception
  | .group _ _ => .error .exception

/-- the cells of a table one after the other -/
def walkCells (X : StyleCtx V) (table : List (Str × V)) : List (STree V) → Except PyErr (List (SEvent V))
  | [] => .ok []
  | t :: l => do
    let a ← walkCell X table t
    let b ← walkCells X table l
    .ok (a ++ b)

/-- `add_cell`, table.py:752-828, with `process_text` (table.py:855-863), `process_content` (table.py:942-946) and `process_table`
(table.py:984-991); a group in a cell is not known there -/
def walkCell (X : StyleCtx V) (table : List (Str × V)) : STree V → Except PyErr (List (SEvent V))
  | .text dot st => do
    let (s, c) ← cellStyleOf X (some dot) st table
    let f ← textStyle X (some dot) s
    .ok [.cell c, .text s f]
  | .image st => do
    let (_, c) ← cellStyleOf X none st table
    .ok [.cell c]
  | .table st cells => do
    let (s, c) ← cellStyleOf X none st table
    let t ← tableStyle X (.dict s)
    let a ← walkCells X t.style cells
    .ok (.cell c :: .table t :: a)
  | .box st elems => do
    let (s, c) ← cellStyleOf X none st table
    let s ← partStyle X [] (.dict s)
    let a ← walkElems X s elems
    .ok (.cell c :: a)
  | .group st _ => do
    let (_, c) ← cellStyleOf X none st table
    .ok [.cell c]
end

/-- the settings of a document that are the defaults of its contents -/
structure PdfDefaults (V : Type) where
  family : V
  size : V
  color : V
  align : V
  lineHeight : V
  indent : V

/-- `_default_content_style`, pdf.py:703-717 -/
def defaultContentStyle (D : PdfDefaults V) : List (Str × V) :=
  [(c!"f", D.family), (c!"s", D.size), (c!"c", D.color), (c!"text_align", D.align), (c!"line_height", D.lineHeight), (c!"indent", D.indent)]

/-- `content`: `_create_content` (pdf.py:817-822) and the root of the content box (content.py:247-250) -/
def walkContent (X : StyleCtx V) (D : PdfDefaults V) (st : StyleArg V) (elems : List (STree V)) : Except PyErr (List (SEvent V)) := do
  let e ← processStyle X st
  let s ← partStyle X [] (.dict (dupdate (defaultContentStyle D) e))
  walkElems X s elems

/-- `table`: `_create_table` (pdf.py:733-739) -/
def walkTable (X : StyleCtx V) (D : PdfDefaults V) (st : StyleArg V) (cells : List (STree V)) : Except PyErr (List (SEvent V)) := do
  let e ← processStyle X st
  let t ← tableStyle X (.dict (dupdate (defaultContentStyle D) e))
  let a ← walkCells X t.style cells
  .ok (.table t :: a)

/-- `process_text` of a content box draws a text (content.py:855-863); the element that was given has its `style` replaced (content.py:859).
The style of the paragraph, the style of its text, and the `style` of the element afterwards. -/
def drawText (X : StyleCtx V) (inherited : List (Str × V)) (dot : Str) (st : StyleArg V) :
    Except PyErr ((List (Str × V) × List (Str × V)) × StyleArg V) := do
  let (s, _) ← elementStyles X (some dot) st inherited
  let f ← textStyle X (some dot) s
  .ok ((s, f), .dict s)

/-- `process_text` of a table does that to a copy (table.py:716, 859) -/
def drawCellText (X : StyleCtx V) (table : List (Str × V)) (dot : Str) (st : StyleArg V) :
    Except PyErr ((List (Str × V) × List (Str × V)) × StyleArg V) := do
  let (s, _) ← cellStyleOf X (some dot) st table
  let f ← textStyle X (some dot) s
  .ok ((s, f), st)

/-- `_init_text` of a dict and the text that is made of it, pdf.py:499-513; the dict that was given has its `style` replaced (pdf.py:512) -/
def drawPdfText (X : StyleCtx V) (D : PdfDefaults V) (dot : Option Str) (st : StyleArg V) :
    Except PyErr (List (Str × V) × StyleArg V) := do
  let d ← dotStyle X dot
  let e ← processStyle X st
  let s := dupdate (dupdate [(c!"f", D.family), (c!"s", D.size), (c!"c", D.color)] d) e
  let f ← textStyle X dot s
  .ok (f, .dict s)

/-- how the lines of a paragraph are laid out -/
structure ParProps (V : Type) where
  align : V
  lineHeight : V
  indent : V

/-- the arguments of `PDFText` from the style of a paragraph (content.py:856-858, table.py:856-858), with the defaults of text.py:6, 443-446 and
1207 -/
def parProps (X : StyleCtx V) (style : List (Str × V)) : ParProps V :=
  ⟨(dget c!"text_align" style).getD (X.str c!"l"), (dget c!"line_height" style).getD (X.num (11/10)), (dget c!"indent" style).getD (X.num 0)⟩

/-- `_default_paragraph_style`, pdf.py:459-488; `none` is `None` -/
def defaultParagraphStyle (D : PdfDefaults V) (align lineHeight indent : Option V) : ParProps V :=
  ⟨align.getD D.align, lineHeight.getD D.lineHeight, indent.getD D.indent⟩

/-- `text` (pdf.py:679-701), `_text` (pdf.py:645-677) and `_create_text` (pdf.py:555-578); `none` is an argument that is not given, and the
default values of the arguments are `None`, 1.1 and 0 -/
def pdfTextProps (X : StyleCtx V) (D : PdfDefaults V) (align lineHeight indent : Option V) : ParProps V :=
  defaultParagraphStyle D align (some (lineHeight.getD (X.num (11/10)))) (some (indent.getD (X.num 0)))

end Verif
