import Verif.Model.Text
import Verif.PyDict
/-! Model of what `pdfme/text.py` writes for the lines of a paragraph: `PDFState.compare`,
`add_line_to_stream`, `clean_words`, `output_text`, `output_graphics`, and `PDFTrueTypeFont.encode_text`. -/
namespace Verif

/-- how numbers are written: besides `NumFmt`, `raw x` is the text of `x` as it is, and `rnd x` the number
`round(x, 3)` -/
structure TFmt extends NumFmt where
  raw : Rat → Str
  rnd : Rat → Rat

/-- `s.replace(c, r)` for a character -/
def replaceChar (c : Char) (r : Str) (s : Str) : Str := s.flatMap fun x => if x = c then r else [x]

/-- `escape_string`, utils.py:432-441, and the replacements of `clean_words`, text.py:932 -/
def escapeString (s : Str) : Str := replaceChar ')' c!"\\)" (replaceChar '(' c!"\\(" (replaceChar '\\' c!"\\\\" s))

/-- `clean_words`, text.py:919-933 -/
def cleanWords (ws : List Str) : Str := escapeString ws.flatten

/-- `as_hex(chr(g))`, utils.py:421-430: the two bytes of a number below 65536, as characters. Numbers of
surrogates cannot be encoded; a greater number would give a surrogate pair (glyph numbers have 16 bits:
not modelled). -/
def asHex (g : Nat) : Except PyErr Str :=
  if 0xd800 ≤ g ∧ g < 0xe000 then .error .unicodeError
  else .ok (escapeString [Char.ofNat (g / 256 % 256), Char.ofNat (g % 256)])

/-- `encode_text`, fonts.py:379-380; `map` is `cids2gids` (missing characters raise `KeyError`) -/
def encodeText (map : Char → Option Nat) : Str → Except PyErr Str
  | [] => .ok []
  | c :: s => match map c with
    | none => .error .keyError
    | some g => match asHex g with
      | .error e => .error e
      | .ok a => match encodeText map s with
        | .error e => .error e
        | .ok b => .ok (a ++ b)

/-- `fonts.get_font(family, mode)` of fonts that are not standard: the glyphs of characters, or `KeyError` -/
abbrev Encs := Str → Str → Option (Char → Option Nat)

/-- the text of the operand: `font.encode_text(text)` -/
def encodeWith (E : Encs) (family mode text : Str) : Except PyErr Str :=
  match E family mode with
  | none => .error .keyError
  | some map => encodeText map text

/-- the font part of `compare`, text.py:54-58 -/
def PState.fontText (F : TFmt) (s : PState) : Option PState → Str
  | some o => if s.family = o.family ∧ s.mode = o.mode ∧ s.size = o.size then []
    else c!" /" ++ s.ref ++ c!" " ++ F.fmt s.size ++ c!" Tf"
  | none => c!" /" ++ s.ref ++ c!" " ++ F.fmt s.size ++ c!" Tf"

/-- the colour part, text.py:59-60; `self.color != other.color` is derived from `__eq__` -/
def PState.colorText (F : TFmt) (s : PState) : Option PState → Except PyErr Str
  | some o => if colorDiffers s.color (some o.color) then (s.color.str F.fmt).map (' ' :: ·) else .ok []
  | none => (s.color.str F.fmt).map (' ' :: ·)

/-- the rise part, text.py:61-62 -/
def PState.riseText (F : TFmt) (s : PState) : Option PState → Str
  | some o => if s.rise = o.rise then [] else c!" " ++ F.fmt s.rise ++ c!" Ts"
  | none => c!" " ++ F.fmt s.rise ++ c!" Ts"

/-- `PDFState.compare`, text.py:43-64 -/
def PState.compare (F : TFmt) (s : PState) (other : Option PState) : Except PyErr Str :=
  match s.colorText F other with
  | .error e => .error e
  | .ok c => .ok (s.fontText F other ++ c ++ s.riseText F other)

/-- `last_state` and `last_factor`, text.py:611 -/
structure TLast where
  state : Option PState
  factor : Option Rat
  deriving DecidableEq

/-- `output_text`, text.py:935-978; `text` is the result of `clean_words` -/
def outputText (F : TFmt) (M : Metrics) (E : Encs) (p : TPart) (text : Str) (factor : Rat) (last : TLast) :
    Except PyErr (TLast × Str) :=
  match p.look.st.compare F last.state with
  | .error e => .error e
  | .ok s =>
    let v := p.spaceWidth M * (factor - 1)
    let tw := F.rnd v
    let sw : Str := if last.factor = some tw then [] else c!" " ++ (if tw = 0 then c!"0" else F.fmt v) ++ c!" Tw"
    let last' : TLast := ⟨some p.look.st, some tw⟩
    if text = [] then .ok (last', s ++ sw)
    else match p.look.enc with
      | none => .ok (last', s ++ sw ++ c!" (" ++ text ++ c!")Tj")
      | some mode => match encodeWith E p.look.st.family mode text with
        | .error e => .error e
        | .ok t => .ok (last', s ++ sw ++ c!" (" ++ t ++ c!")Tj")

/-- `last_fill`, `last_color`, `last_stroke_width`, text.py:611-612 -/
structure TGLast where
  fill : Option (PDFColor Rat)
  color : Option (PDFColor Rat)
  stroke : Option Rat
  deriving DecidableEq

/-- the background of a part, text.py:997-1006 -/
def outputBackground (F : TFmt) (p : TPart) (x y w : Rat) (last : TGLast) : Except PyErr (TGLast × Str) :=
  if p.look.bg.color.isNone then .ok (last, [])
  else match colorPart F.toNumFmt p.look.bg last.fill with
    | .error e => .error e
    | .ok (f, s) => .ok ({ last with fill := f },
        s ++ c!" " ++ F.fmt x ++ c!" " ++ F.fmt (y + p.look.st.rise - p.look.st.size / 4) ++ c!" " ++ F.fmt w ++ c!" "
          ++ F.fmt (p.look.st.size * (6 / 5)) ++ c!" re F")

/-- the underline of a part, text.py:1008-1023 -/
def outputUnderline (F : TFmt) (p : TPart) (x y w : Rat) (last : TGLast) : Except PyErr (TGLast × Str) :=
  if !p.look.underline then .ok (last, [])
  else
    let color : PDFColor Rat := ⟨p.look.st.color.color, true⟩
    let sw := p.look.st.size * (7 / 100)
    let yu := F.fmt (y + p.look.st.rise - sw)
    match colorPart F.toNumFmt color last.color with
    | .error e => .error e
    | .ok (c, s) =>
      .ok ({ last with color := c, stroke := some sw },
        s ++ (if last.stroke = some sw then [] else c!" " ++ F.fmt sw ++ c!" w") ++ c!" " ++ F.fmt x ++ c!" " ++ yu ++ c!" m "
          ++ F.fmt (x + w) ++ c!" " ++ yu ++ c!" l S")

/-- `output_graphics`, text.py:980-1025 -/
def outputGraphics (F : TFmt) (p : TPart) (x y w : Rat) (last : TGLast) : Except PyErr (TGLast × Str) :=
  match outputBackground F p x y w last with
  | .error e => .error e
  | .ok (l1, s1) => match outputUnderline F p x y w l1 with
    | .error e => .error e
    | .ok (l2, s2) => .ok (l2, s1 ++ s2)

/-- a rectangle of an id: left, bottom, right, top -/
abbrev IdRect := Rat × Rat × Rat × Rat

/-- `self.ids.setdefault(id_, []).append(rect)` -/
def addIdRect (id : Str) (r : IdRect) (ids : List (Str × List IdRect)) : List (Str × List IdRect) :=
  dset id ((dget id ids).getD [] ++ [r]) ids

/-- the ids of a part, text.py:905-911 -/
def partIds (F : TFmt) (p : TPart) (x y w : Rat) (ids : List (Str × List IdRect)) : List (Str × List IdRect) :=
  let size := F.rnd p.look.st.size
  let idy := y + p.look.st.rise - size / 4
  (p.ids.getD []).foldl (fun d i => addIdRect i (F.rnd x, F.rnd idy, F.rnd (x + w), F.rnd (idy + size)) d) ids

/-- what the loop over the parts of a line changes -/
structure LoopSt where
  x : Rat
  last : TLast
  glast : TGLast
  text : Str
  graphics : Str
  ids : List (Str × List IdRect)
  deriving DecidableEq

/-- one part, text.py:898-917 -/
def outputPart (F : TFmt) (M : Metrics) (E : Encs) (y factor : Rat) (p : TPart) (s : LoopSt) : Except PyErr LoopSt :=
  let text := cleanWords p.words
  match outputText F M E p text factor s.last with
  | .error e => .error e
  | .ok (last, t) =>
    let w := p.width + p.spaces * factor
    if text ≠ [] ∧ strIsSpace text = false then
      match outputGraphics F p s.x y w s.glast with
      | .error e => .error e
      | .ok (gl, g) => .ok { x := s.x + w, last := last, glast := gl, text := s.text ++ t, graphics := s.graphics ++ g,
                             ids := partIds F p s.x y w s.ids }
    else .ok { s with x := s.x + w, last := last, text := s.text ++ t }

/-- the loop, text.py:898-917 -/
def outputParts (F : TFmt) (M : Metrics) (E : Encs) (y factor : Rat) : List TPart → LoopSt → Except PyErr LoopSt
  | [], s => .ok s
  | p :: l, s => match outputPart F M E y factor p s with
    | .error e => .error e
    | .ok s' => outputParts F M E y factor l s'

/-- the variables that place the lines: `started`, `last_indent`, `is_first_line`, `correct_indent` -/
structure Geo where
  started : Bool
  lastIndent : Rat
  isFirst : Bool
  correct : Bool
  deriving DecidableEq

/-- the variables `add_line_to_stream` uses, and what it writes -/
structure OutSt where
  geo : Geo
  last : TLast
  glast : TGLast
  y : Rat
  text : Str
  graphics : Str
  ids : List (Str × List IdRect)
  deriving DecidableEq

/-- is the text right aligned or centred? text.py:822 -/
def TCfg.moved (cfg : TCfg) : Bool := cfg.align = c!"r" || cfg.align = c!"c"

/-- `indent` of right aligned and centred lines, text.py:822-828 -/
def lineIndent (cfg : TCfg) (width : Rat) (l : TLine) : Rat :=
  let indent := width - (partsWidths l.parts).1 - (partsWidths l.parts).2
  if cfg.align = c!"c" then indent / 2 else indent

/-- `adjusted_indent`, text.py:821-828 -/
def Geo.adjusted (cfg : TCfg) (width : Rat) (l : TLine) (g : Geo) : Rat :=
  if cfg.moved then lineIndent cfg width l - g.lastIndent else 0

/-- the variables afterwards, text.py:822-887 -/
def Geo.next (cfg : TCfg) (width : Rat) (l : TLine) (g : Geo) : Geo :=
  { started := true, lastIndent := if cfg.moved then lineIndent cfg width l else g.lastIndent,
    isFirst := if g.started then g.isFirst else false, correct := if g.started then false else g.correct }

/-- is this the first line of the paragraph? -/
def Geo.atStart (g : Geo) : Bool := !g.started && g.isFirst

/-- the horizontal move to a line, text.py:830-892 -/
def Geo.dx (cfg : TCfg) (width : Rat) (l : TLine) (g : Geo) : Rat :=
  if g.started then (if g.correct then g.adjusted cfg width l - cfg.indent else g.adjusted cfg width l)
  else if g.isFirst then (if cfg.moved then g.adjusted cfg width l else cfg.indent) + cfg.listIndent
  else g.adjusted cfg width l + cfg.listIndent

/-- `full_line_height`: the vertical move (downwards) to a line, text.py:818, 842-845, 889 -/
def Geo.dy (cfg : TCfg) (l : TLine) (g : Geo) : Rat :=
  if g.started then l.height * cfg.lineHeight
  else if g.isFirst then match cfg.list with
    | some lc => if lc.state.size > l.height then lc.state.size else l.height
    | none => l.height
  else l.height

/-- `factor_width`, text.py:820, 833 -/
def Geo.factorWidth (cfg : TCfg) (width : Rat) (l : TLine) (g : Geo) : Rat :=
  let fw := width - (partsWidths l.parts).1 - cfg.listIndent
  if g.atStart then fw - cfg.indent else fw

/-- `x`, the left edge of a line, text.py:816, 826, 834 -/
def Geo.x (cfg : TCfg) (width : Rat) (l : TLine) (g : Geo) : Rat :=
  let x := if cfg.moved then cfg.listIndent + lineIndent cfg width l else cfg.listIndent
  if g.atStart then x + cfg.indent else x

/-- `factor`, text.py:819, 896 -/
def lineFactor (cfg : TCfg) (width : Rat) (isLast : Bool) (l : TLine) (g : Geo) : Rat :=
  if cfg.align ≠ c!"j" ∨ isLast = true ∨ (partsWidths l.parts).2 = 0 then 1
  else g.factorWidth cfg width l / (partsWidths l.parts).2

/-- the operand for the text of a list, text.py:847-872: `enc` are the family and mode that are looked up
when the font is not standard (taken as given) -/
def listOperand (E : Encs) (enc : Option (Str × Str)) (t : Str) : Except PyErr Str := match enc with
  | none => .ok t
  | some (f, m) => encodeWith E f m t

/-- the text of a list, written in front of the first line, text.py:842-872. `list_state` is set when the
first text part begins: for a paragraph that begins with a line break it is missing. -/
def bulletText (F : TFmt) (E : Encs) (cfg : TCfg) (enc : Option (Str × Str)) (width : Rat) (l : TLine) (lc : ListCfg)
    (o : OutSt) : Except PyErr Str :=
  if l.parts = [] then .error .attributeError
  else match lc.state.compare F o.last.state with
    | .error e => .error e
    | .ok s => match listOperand E enc lc.text with
      | .error e => .error e
      | .ok t => .ok (c!" 0 -" ++ F.fmt (o.geo.dy cfg l) ++ c!" Td" ++ s ++ c!" (" ++ t ++ c!")Tj "
          ++ F.raw (o.geo.dx cfg width l) ++ c!" 0 Td")

/-- the move to a line (and the text of a list in front of it), text.py:830-892 -/
def lineStart (F : TFmt) (E : Encs) (cfg : TCfg) (enc : Option (Str × Str)) (width : Rat) (l : TLine) (o : OutSt) :
    Except PyErr Str :=
  match cfg.list with
  | some lc => if o.geo.atStart then bulletText F E cfg enc width l lc o
    else .ok (c!" " ++ F.fmt (o.geo.dx cfg width l) ++ c!" -" ++ F.fmt (o.geo.dy cfg l) ++ c!" Td")
  | none => .ok (c!" " ++ F.fmt (o.geo.dx cfg width l) ++ c!" -" ++ F.fmt (o.geo.dy cfg l) ++ c!" Td")

/-- `add_line_to_stream`, text.py:806-917 -/
def addLineToStream (F : TFmt) (M : Metrics) (E : Encs) (cfg : TCfg) (enc : Option (Str × Str)) (width : Rat)
    (o : OutSt) (line : TLine × Bool) : Except PyErr OutSt :=
  match lineStart F E cfg enc width line.1 o with
  | .error e => .error e
  | .ok s =>
    let y := o.y - o.geo.dy cfg line.1
    match outputParts F M E y (lineFactor cfg width line.2 line.1 o.geo) line.1.parts
        { x := o.geo.x cfg width line.1, last := o.last, glast := o.glast, text := o.text ++ s, graphics := o.graphics,
          ids := o.ids } with
    | .error e => .error e
    | .ok r => .ok { geo := o.geo.next cfg width line.1, last := r.last, glast := r.glast, y := y, text := r.text,
                     graphics := r.graphics, ids := r.ids }

/-- the lines of a run one after the other -/
def streamLines (F : TFmt) (M : Metrics) (E : Encs) (cfg : TCfg) (enc : Option (Str × Str)) (width : Rat) :
    List (TLine × Bool) → OutSt → Except PyErr OutSt
  | [], o => .ok o
  | l :: ls, o => match addLineToStream F M E cfg enc width o l with
    | .error e => .error e
    | .ok o' => streamLines F M E cfg enc width ls o'

/-- `init`, text.py:593-614, of what is written; `first` and `correct` are kept from the run before -/
def outInit (first correct : Bool) : OutSt :=
  { geo := ⟨false, 0, first, correct⟩, last := ⟨none, none⟩, glast := ⟨none, none, none⟩, y := 0, text := [], graphics := [],
    ids := [] }

/-- what a run writes: `run` calls `add_line_to_stream` for each line it places -/
def textOut (F : TFmt) (M : Metrics) (E : Encs) (cfg : TCfg) (enc : Option (Str × Str)) (width height : Rat) (pos : TPos)
    (correct : Bool) : Except PyErr OutSt :=
  streamLines F M E cfg enc width (textRun M cfg width height pos).lines (outInit pos.isFirstLine correct)

end Verif
