import Verif.Model.Graphics
/-! Model of the paragraph layout of `pdfme/text.py`: `PDFState`, `PDFTextLinePart`, `PDFTextLine` and
the running part of `PDFTextBase`. What is written to the stream for a line is in `TextOut`.

Sizes and widths are rationals. Font metrics are a parameter: `M family mode c` is the width of `c` at
size 1 (a character missing in a standard font raises `KeyError` in the code; not modelled). -/
namespace Verif

/-- `c.isspace()` -/
def pyIsSpace (c : Char) : Bool :=
  isSpace c || c.toNat == 0x1680 || (0x2000 ≤ c.toNat && c.toNat ≤ 0x200a) || c.toNat == 0x2028
    || c.toNat == 0x2029 || c.toNat == 0x202f || c.toNat == 0x205f || c.toNat == 0x3000

/-- `w.isspace()` -/
def strIsSpace (w : Str) : Bool := !w.isEmpty && w.all pyIsSpace

/-- font metrics: family, mode, character -/
abbrev Metrics := Str → Str → Char → Rat

/-- `PDFState`, text.py:11-64; `ref` is the name of its font. -/
structure PState where
  family : Str
  mode : Str
  ref : Str
  size : Rat
  color : PDFColor Rat
  rise : Rat
  deriving DecidableEq

/-- what a part style resolves to, text.py:78-81; `enc` is the font mode `output_text` looks up for a
font which is not standard (text.py:961-974), `none` for a standard font. -/
structure TLook where
  st : PState
  underline : Bool
  bg : PDFColor Rat
  enc : Option Str
  deriving DecidableEq

/-- `PDFTextLinePart`, text.py:75-87 -/
structure TPart where
  look : TLook
  ids : Option (List Str)
  width : Rat
  words : List Str
  spaces : Rat
  deriving DecidableEq

/-- `get_word_width` / `get_char_width`, text.py:150-170 -/
def wordWidth (M : Metrics) (s : PState) (w : Str) : Rat :=
  s.size * (w.map (M s.family s.mode)).sum

/-- a new part, text.py:75-87 -/
def TPart.new (look : TLook) (ids : Option (List Str)) : TPart := ⟨look, ids, 0, [], 0⟩

/-- `space_width`, text.py:86 -/
def TPart.spaceWidth (M : Metrics) (p : TPart) : Rat := wordWidth M p.look.st c!" "

/-- `add_word`, text.py:108-118 -/
def TPart.addWord (M : Metrics) (p : TPart) (w : Str) : TPart :=
  if w = c!" " then { p with words := p.words ++ [w], spaces := p.spaces + p.spaceWidth M }
  else { p with words := p.words ++ [w], width := p.width + wordWidth M p.look.st w }

/-- `pop_word()`, text.py:89-106 -/
def TPart.popWord (M : Metrics) (p : TPart) : TPart :=
  match p.words.getLast? with
  | none => p
  | some w =>
    if w = c!" " then { p with words := p.words.dropLast, spaces := p.spaces - p.spaceWidth M }
    else { p with words := p.words.dropLast, width := p.width - wordWidth M p.look.st w }

/-- `PDFTextLine`, text.py:190-208; `next` is `next_line.line_parts` (empty when `next_line` is None). -/
structure TLine where
  maxWidth : Rat
  align : Str
  parts : List TPart
  topMargin : Rat
  next : List TPart
  lastSpace : Bool     -- is_last_word_space
  firstWord : Bool     -- firstWordAdded
  started : Bool
  deriving DecidableEq

/-- `PDFTextLine(fonts, max_width, text_align, top_margin)`, text.py:190-208 -/
def TLine.new (maxWidth : Rat) (align : Str) (topMargin : Rat) : TLine :=
  ⟨maxWidth, align, [], topMargin, [], true, false, false⟩

/-- `factor`, text.py:198-202 -/
def minFactor (align : Str) : Rat := if align = c!"j" then 7 / 10 else 1

/-- `get_widths`, text.py:254-266 -/
def partsWidths (l : List TPart) : Rat × Rat := ((l.map TPart.width).sum, (l.map TPart.spaces).sum)

/-- `min_width`, text.py:228-238 -/
def minWidth (align : Str) (l : List TPart) : Rat :=
  (partsWidths l).1 + (partsWidths l).2 * minFactor align

/-- the loop of `height`, text.py:218-224 -/
def heightLoop : List TPart → Rat → Rat → Rat × Rat
  | [], top, h => (top, h)
  | p :: l, top, h =>
    heightLoop l (if p.look.st.rise > 0 ∧ p.look.st.rise > top then p.look.st.rise else top)
      (if p.look.st.size > h then p.look.st.size else h)

/-- `height`, text.py:210-226 -/
def TLine.height (l : TLine) : Rat :=
  (heightLoop l.parts 0 0).2 + l.topMargin + (heightLoop l.parts 0 0).1

/-- the loop of `bottom`, text.py:248-252 -/
def bottomLoop : List TPart → Rat → Rat
  | [], b => b
  | p :: l, b => bottomLoop l (if p.look.st.rise < 0 ∧ -p.look.st.rise > b then -p.look.st.rise else b)

/-- `add_line_part`, text.py:268-285 -/
def TLine.addLinePart (l : TLine) (look : TLook) (ids : Option (List Str)) : TLine :=
  { l with next := l.next ++ [TPart.new look ids] }

/-- the last part of a list changed in place (`parts[-1]`; the list is never empty there) -/
def onLast (f : TPart → TPart) : List TPart → List TPart
  | [] => []
  | [p] => [f p]
  | p :: q :: l => p :: onLast f (q :: l)

/-- the parts of a line with those of its auxiliary line, text.py:291-296: the words of the first of
them go to the last part of the line -/
def mergeParts (M : Metrics) : List TPart → List TPart → List TPart
  | [], nx => nx
  | p :: ps, [] => p :: ps
  | p :: ps, n :: nx => onLast (fun q => n.words.foldl (TPart.addWord M) q) (p :: ps) ++ nx

/-- `add_accumulated`, text.py:287-301 -/
def TLine.addAccumulated (M : Metrics) (l : TLine) : TLine :=
  let parts := onLast (fun p => p.addWord M c!" ") (mergeParts M l.parts l.next)
  { l with parts := parts, next := match parts.getLast? with
      | none => l.next
      | some p => [TPart.new p.look p.ids] }

/-- the dict `add_word` returns, text.py:303-366 -/
inductive AddRes
  | added
  | ignored
  | preadded
  | finished (newLine : TLine)
  deriving DecidableEq

/-- `add_word`, text.py:326-366: the line afterwards and the result. After `finished` the auxiliary
line is the new line, whose own `line_parts` are empty. -/
def TLine.addWord (M : Metrics) (l : TLine) (w : Str) : TLine × AddRes :=
  if !l.started then
    if strIsSpace w then
      if l.firstWord then ({ l with started := true }.addAccumulated M, .added)
      else (l, .ignored)
    else ({ l with firstWord := true, next := onLast (fun p => p.addWord M w) l.next }, .added)
  else
    if strIsSpace w then
      if l.lastSpace then (l, .ignored)
      else (l.addAccumulated M, .added)
    else
      let l1 : TLine := { l with lastSpace := false, next := onLast (fun p => p.addWord M w) l.next }
      if minWidth l1.align l1.parts + minWidth l1.align l1.next < l1.maxWidth then (l1, .preadded)
      else
        let parts := onLast (fun p => if p.words.getLast? = some c!" " then p.popWord M else p) l1.parts
        ({ l1 with parts := parts, next := [] },
          .finished { maxWidth := l1.maxWidth, align := l1.align, parts := [],
                      topMargin := bottomLoop parts 0, next := l1.next, lastSpace := true,
                      firstWord := true, started := false })

/-- an element of the content of a paragraph: a line break, a dict that is skipped (another `type`, or
no text), or a text part with its words. -/
inductive TItem
  | br
  | skip
  | text (words : List Str) (look : TLook) (ids : Option (List Str))
  deriving DecidableEq

/-- the words of a text, text.py:697-702: runs of blanks become one blank -/
def splitWords (s : Str) : List Str :=
  (s.splitBy fun a b => (a == ' ') == (b == ' ')).map fun w => if strIsSpace w then c!" " else w

/-- a list paragraph, with the indent and the state that `setup_list` (text.py:764-804) computes from
`list_style` and the first part (taken as given here) -/
structure ListCfg where
  text : Str
  indent : Rat
  state : PState
  deriving DecidableEq

/-- what does not change in a `PDFTextBase`, text.py:434-472 (`list_text`: `none` when it is falsy; the
text of a `var` part is taken as constant) -/
structure TCfg where
  content : List TItem
  indent : Rat
  align : Str
  lineHeight : Rat
  list : Option ListCfg
  deriving DecidableEq

/-- what a `PDFTextBase` remembers between runs, text.py:460-472. `correct_indent` is only used when
writing the stream, see `TextOut`. -/
structure TPos where
  lastPart : Nat
  lastWord : Nat
  partAdded : Nat
  wordAdded : Nat
  partLine : Nat
  wordLine : Nat
  finished : Bool
  isFirstLine : Bool
  listDone : Bool
  deriving DecidableEq

/-- a new paragraph, text.py:460-472 -/
def TPos.init : TPos := ⟨0, 0, 0, 0, 0, 0, false, true, false⟩

/-- the variables of a run, text.py:587-614; `lines` with the flag `is_last` each was added with -/
structure RunSt where
  pos : TPos
  cur : TLine
  curHeight : Rat
  firstLineAdded : Bool
  lines : List (TLine × Bool)
  used : List (Str × Str)
  curUsed : List (Str × Str)
  deriving DecidableEq

/-- `self.list_indent if self.list_text else 0`, text.py:716 -/
def TCfg.listIndent (cfg : TCfg) : Rat := match cfg.list with
  | none => 0
  | some l => l.indent

/-- `add_current_line`, text.py:726-762. `is_first_line` is cleared in `add_line_to_stream`
(text.py:835), which is called here. -/
def addCurrentLine (cfg : TCfg) (height : Rat) (isLast : Bool) (r : RunSt) : RunSt × Bool :=
  let cur : TLine := if isLast then { r.cur with parts := r.cur.parts ++ r.cur.next } else r.cur
  let h := if r.firstLineAdded then cur.height * cfg.lineHeight else cur.height
  if h + r.curHeight > height then
    ({ r with cur := cur, firstLineAdded := true,
              pos := { r.pos with lastPart := r.pos.partLine, lastWord := r.pos.wordLine } }, false)
  else
    ({ pos := { r.pos with partLine := r.pos.partAdded, wordLine := r.pos.wordAdded, isFirstLine := false },
       cur := cur, curHeight := r.curHeight + h, firstLineAdded := true,
       lines := r.lines ++ [(cur, isLast)], used := r.used ++ r.curUsed, curUsed := [] }, true)

/-- the loop over the words of a part, text.py:705-721: `i` the part, `k` the index of the next word,
`n` the number of words. -/
def wordLoop (M : Metrics) (cfg : TCfg) (width height : Rat) (i n : Nat) :
    List Str → Nat → RunSt → RunSt × Bool
  | [], _, r => (r, true)
  | w :: ws, k, r =>
    match r.cur.addWord M w with
    | (l, .added) => wordLoop M cfg width height i n ws (k + 1)
        { r with cur := l, pos := { r.pos with partAdded := i, wordAdded := k + 1 } }
    | (l, .finished nl) =>
      let a := addCurrentLine cfg height (decide (i + 1 = cfg.content.length) && decide (k + 1 = n))
        { r with cur := l }
      let r' := { a.1 with cur := { nl with maxWidth := width - cfg.listIndent } }
      if a.2 then wordLoop M cfg width height i n ws (k + 1) r' else (r', false)
    | (l, .preadded) => wordLoop M cfg width height i n ws (k + 1) { r with cur := l }
    | (l, .ignored) => wordLoop M cfg width height i n ws (k + 1) { r with cur := l }

/-- `setup_list` as called in `add_part`, text.py:688-690, 764-804 -/
def setupList (cfg : TCfg) (r : RunSt) : RunSt :=
  match cfg.list with
  | none => r
  | some l =>
    if r.pos.listDone then r
    else { r with pos := { r.pos with listDone := true },
                  cur := { r.cur with maxWidth := r.cur.maxWidth - l.indent },
                  curUsed := r.curUsed ++ [(l.state.family, l.state.mode)] }

/-- `add_part` for a text part, text.py:663-724 -/
def addPart (M : Metrics) (cfg : TCfg) (width height : Rat) (i : Nat) (words : List Str) (look : TLook)
    (ids : Option (List Str)) (r : RunSt) : RunSt × Bool :=
  let r1 := setupList cfg { r with cur := r.cur.addLinePart look ids }
  let r2 := { r1 with curUsed := r1.curUsed ++ [(look.st.family, look.st.mode)] }
  let a := wordLoop M cfg width height i words.length (words.drop r2.pos.lastWord) r2.pos.lastWord r2
  if a.2 then ({ a.1 with pos := { a.1.pos with lastWord := 0 } }, true) else a

/-- the loop of `run`, text.py:635-656: `i` is the index of the next element -/
def partLoop (M : Metrics) (cfg : TCfg) (width height : Rat) : List TItem → Nat → RunSt → RunSt × Bool
  | [], _, r => (r, true)
  | .skip :: l, i, r => partLoop M cfg width height l (i + 1) r
  | .br :: l, i, r =>
    let a := addCurrentLine cfg height true
      { r with pos := { r.pos with partAdded := i + 1, wordAdded := 0 } }
    let r' := { a.1 with cur := TLine.new width cfg.align cfg.lineHeight }
    if a.2 then partLoop M cfg width height l (i + 1) r' else (r', false)
  | .text words look ids :: l, i, r =>
    let a := addPart M cfg width height i words look ids r
    if a.2 then partLoop M cfg width height l (i + 1) a.1 else a

/-- `init`, text.py:587-614 -/
def runInit (cfg : TCfg) (width : Rat) (pos : TPos) : RunSt :=
  { pos := pos, cur := TLine.new (width - (if pos.isFirstLine then cfg.indent else 0)) cfg.align cfg.lineHeight,
    curHeight := 0, firstLineAdded := false, lines := [], used := [], curUsed := [] }

/-- `run`, text.py:616-661: the variables afterwards -/
def textRun (M : Metrics) (cfg : TCfg) (width height : Rat) (pos : TPos) : RunSt :=
  let a := partLoop M cfg width height (cfg.content.drop pos.lastPart) pos.lastPart (runInit cfg width pos)
  if a.2 then
    let b := addCurrentLine cfg height true a.1
    if b.2 then { b.1 with pos := { b.1.pos with finished := true } } else b.1
  else a.1

/-- running a paragraph in a sequence of rectangles until it is finished (`while not finished: run`):
the position afterwards and the lines of every run -/
def textRuns (M : Metrics) (cfg : TCfg) : List (Rat × Rat) → TPos → TPos × List (List (TLine × Bool))
  | [], pos => (pos, [])
  | (w, h) :: l, pos =>
    if pos.finished then (pos, [])
    else
      let r := textRun M cfg w h pos
      let s := textRuns M cfg l r.pos
      (s.1, r.lines :: s.2)

end Verif
