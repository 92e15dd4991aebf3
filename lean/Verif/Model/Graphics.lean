import Verif.Model.Color
/-! Model of `create_graphics` and `get_paragraph_stream` of `pdfme/utils.py`. Numbers are rationals;
`fmt x` is the text of `round(x, 3)` and `fmtHalf x` that of `round(x, 3)*0.5`. -/
namespace Verif

/-- a graphics dict, utils.py:260-306. Dicts of another type are skipped by the code. -/
inductive Graphic
  | fill (color : PDFColor Rat) (x y width height : Rat)
  | line (color : PDFColor Rat) (width : Rat) (style : Str) (x1 y1 x2 y2 : Rat)
  | other
  deriving DecidableEq

/-- how numbers are written -/
structure NumFmt where
  fmt : Rat → Str
  fmtHalf : Rat → Str

/-- `last_fill`, `last_color`, `last_line_width`, `last_line_style`, utils.py:258 -/
structure GLast where
  fill : Option (PDFColor Rat)
  color : Option (PDFColor Rat)
  width : Option Rat
  style : Option Str

/-- `g['color'] != last`: Python derives `!=` from `PDFColor.__eq__` (color.py:176-180; `__neq__` is not
a special method). -/
def colorDiffers (c : PDFColor Rat) : Option (PDFColor Rat) → Bool
  | none => c.color.isSome
  | some d => !(c.color == d.color && c.stroke == d.stroke)

/-- the colour part, utils.py:262-264, 272-274: the new `last_…` and the text added -/
def colorPart (F : NumFmt) (c : PDFColor Rat) (last : Option (PDFColor Rat)) :
    Except PyErr (Option (PDFColor Rat) × Str) :=
  if colorDiffers c last then
    match c.str F.fmt with
    | .error e => .error e
    | .ok s => .ok (some c, ' ' :: s)
  else .ok (last, [])

/-- the line style text, utils.py:280-292 -/
def lineStyle (F : NumFmt) (style : Str) (w : Rat) : Except PyErr Str :=
  if style = c!"dashed" then
    .ok (c!" 0 J [" ++ F.fmt (w * 3) ++ c!" " ++ F.fmt (w * (3 / 2)) ++ c!"] 0 d")
  else if style = c!"dotted" then
    .ok (c!" 1 J [0 " ++ F.fmt (w * 2) ++ c!"] " ++ F.fmtHalf w ++ c!" d")
  else if style = c!"solid" then .ok c!" 0 J [] 0 d"
  else .error .exception

/-- one graphics dict: the new state and the text added to the stream, utils.py:260-302 -/
def graphicStep (F : NumFmt) (last : GLast) : Graphic → Except PyErr (GLast × Str)
  | .other => .ok (last, [])
  | .fill color x y width height =>
    match colorPart F color last.fill with
    | .error e => .error e
    | .ok (f, s) => .ok ({ last with fill := f },
        s ++ c!" " ++ F.fmt x ++ c!" " ++ F.fmt y ++ c!" " ++ F.fmt width ++ c!" " ++ F.fmt height ++ c!" re F")
  | .line color width style x1 y1 x2 y2 =>
    match colorPart F color last.color with
    | .error e => .error e
    | .ok (c, s) =>
      let sw : Str := if last.width = some width then [] else c!" " ++ F.fmt width ++ c!" w"
      match lineStyle F style width with
      | .error e => .error e
      | .ok ls =>
        let sl : Str := if last.style = some ls then [] else ls
        .ok ({ last with color := c, width := some width, style := some ls },
          s ++ sw ++ sl ++ c!" " ++ F.fmt x1 ++ c!" " ++ F.fmt y1 ++ c!" m " ++ F.fmt x2 ++ c!" " ++
            F.fmt y2 ++ c!" l S")

/-- the loop, utils.py:260-302: the text added by the list -/
def graphicsLoop (F : NumFmt) (last : GLast) : List Graphic → Except PyErr Str
  | [] => .ok []
  | g :: l => match graphicStep F last g with
    | .error e => .error e
    | .ok (last', s) => match graphicsLoop F last' l with
      | .error e => .error e
      | .ok r => .ok (s ++ r)

/-- `create_graphics`, utils.py:248-306. -/
def createGraphics (F : NumFmt) (gs : List Graphic) : Except PyErr Str :=
  match graphicsLoop F ⟨none, none, none, none⟩ gs with
  | .error e => .error e
  | .ok s => .ok (if s = [] then [] else c!" q" ++ s ++ c!" Q")

/-- `get_paragraph_stream`, utils.py:339-361. -/
def paragraphStream (F : NumFmt) (x y : Rat) (text graphics : Str) : Str :=
  (if graphics = [] then [] else
    c!" q 1 0 0 1 " ++ F.fmt x ++ c!" " ++ F.fmt y ++ c!" cm" ++ graphics ++ c!" Q") ++
  (if text = [] then [] else
    c!" BT 1 0 0 1 " ++ F.fmt x ++ c!" " ++ F.fmt y ++ c!" Tm" ++ text ++ c!" ET")

end Verif
