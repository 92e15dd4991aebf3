import Verif.Model.TableDefs
/-!
# Model of the engine of `PDFTable` (table.py:380-828)

Rows, cells, spans, borders and fills of a table, one rectangle at a time.

Simplifications. The content of a cell (a paragraph, image, content box or inner table, table.py:830-1002) is a state
`σ` with a function `exec` that gives what its `run` adds and the state kept in `delayed`. The style of a cell is the result of
`get_cell_style` (table.py:674-717): margins and own fill. Spans are at least 1: `cols` and `rows` are the numbers of
*further* columns and rows of a cell. Numbers are exact rationals. The colour and style of a border are one value. -/
namespace Verif

/-- a border dict; `none` stands for `{}` -/
structure Bd (B : Type) where
  width : Rat
  look : B
  deriving DecidableEq

/-- `b.get('width', 0)` -/
def bdWidth {B : Type} : Option (Bd B) → Rat
  | some b => b.width
  | none => 0

/-- `b['width'] = 0` -/
def Bd.off {B : Type} (b : Bd B) : Bd B := { b with width := 0 }

/-- a line of the table; the lower end of a vertical line is set later -/
structure BLine (B : Type) where
  x1 : Rat
  y1 : Rat
  x2 : Rat
  y2 : Option Rat
  width : Rat
  look : B
  deriving DecidableEq

/-- an entry of `vert_lines` -/
structure VLine (B : Type) where
  list : List (BLine B)
  interrupted : Bool
  deriving DecidableEq

/-- a fill, in `fills_mem` or `fills` -/
structure TFill (C : Type) where
  x : Rat
  y : Rat
  width : Rat
  height : Rat
  color : C
  later : Bool
  deriving DecidableEq

/-- the `cell_style` dict, table.py:708-715 -/
structure CellStyle (C : Type) where
  top : Rat
  right : Rat
  bottom : Rat
  left : Rat
  fill : Option C
  deriving DecidableEq

/-- a cell: its content (`none` for a dict without any content key), spans and style -/
structure Cell (σ C : Type) where
  content : Option σ
  cols : Nat
  rows : Nat
  style : CellStyle C
  deriving DecidableEq

/-- a `delayed` dict, table.py:787-790; `content` is absent if the element had no content key -/
structure Delayed (σ C : Type) where
  style : CellStyle C
  cols : Nat
  rows : Nat
  row : Nat
  content : Option σ
  deriving DecidableEq

/-- what running the content of a cell gives -/
structure CellOut (σ P B C : Type) where
  parts : List P
  lines : List (BLine B)
  fills : List (TFill C)
  height : Rat
  finished : Bool
  next : σ

/-- what does not change while a table runs -/
structure TConf (σ P B C : Type) where
  content : List (List (Option (Cell σ C)))
  cols : Nat
  widths : List Rat
  border : Int → Int → Bool → Bd B
  fillDef : Int → Int → Option C
  style : CellStyle C
  blank : σ
  exec : σ → Rat → Rat → Rat → Rat → Except PyErr (CellOut σ P B C)

/-- the attributes of a table -/
structure TS (σ P B C : Type) where
  x : Rat
  y : Rat
  width : Rat
  height : Rat
  index : Nat
  delayed : List (Nat × Delayed σ C)
  firstRow : Bool
  finished : Bool
  parts : List P
  lines : List (BLine B)
  fills : List (TFill C)
  fillsMem : List (Nat × TFill C)
  heightsMem : List (Nat × Rat)
  rowspan : List (Nat × Nat × Nat)
  vert : List (VLine B)
  currentHeight : Rat
  maxHeight : Rat
  rowMax : Rat
  colspan : Nat
  topLines : List (BLine B)
  topInt : Bool
  isRowspan : Bool
  yAbs : Rat
  xAbs : Rat

/-- `d.pop(k, None)` -/
def ddrop {K V : Type} [DecidableEq K] (k : K) (d : List (K × V)) : List (K × V) := d.filter fun e => e.1 ≠ k

/-- change of `l[-1]` -/
def modifyLast {α : Type} (f : α → α) : List α → List α
  | [] => []
  | [a] => [f a]
  | a :: b :: l => a :: modifyLast f (b :: l)

variable {σ P B C : Type}

/-- table.py:166-172, 175-176, 198 -/
def TS.new (x y width height : Rat) : TS σ P B C where
  x := x
  y := y
  width := width
  height := height
  index := 0
  delayed := []
  firstRow := true
  finished := false
  parts := []
  lines := []
  fills := []
  fillsMem := []
  heightsMem := []
  rowspan := []
  vert := []
  currentHeight := 0
  maxHeight := 0
  rowMax := 0
  colspan := 0
  topLines := []
  topInt := true
  isRowspan := false
  yAbs := 0
  xAbs := 0

section Borders
variable [DecidableEq B]

/-- `compare_borders`, table.py:380-391 -/
def sameBorder (l : BLine B) (b : Bd B) : Bool := l.width = b.width ∧ l.look = b.look

/-- the correction from the line being drawn, table.py:404-407, 411-415 -/
def correction (w : Rat) (interrupted : Bool) (l : List (BLine B)) : Rat :=
  if interrupted then w / 2
  else match l.getLast? with
    | some a => if a.width / 2 > w / 2 then a.width / 2 else w / 2
    | none => w / 2

/-- whether the line being drawn goes on with border `b` -/
def goesOn (interrupted : Bool) (l : List (BLine B)) (b : Bd B) : Bool :=
  match interrupted, l.getLast? with
  | false, some a => sameBorder a b
  | _, _ => false

/-- the top lines, table.py:417-435 -/
def topStep (ws : List Rat) (width xAbs yAbs hc : Rat) (col : Nat) (top : Option (Bd B)) (l : List (BLine B)) (interrupted : Bool) :
    List (BLine B) × Bool :=
  let l := if interrupted then l else modifyLast (fun a => { a with x2 := a.x2 + hc }) l
  match top with
  | none => (l, true)
  | some b =>
    if b.width > 0 then
      if goesOn interrupted l b then (modifyLast (fun a => { a with x2 := xAbs + ws.getD col 0 * width }) l, interrupted)
      else (l ++ [⟨xAbs - hc, yAbs, xAbs + ws.getD col 0 * width, some yAbs, b.width, b.look⟩], false)
    else (l, true)

/-- the vertical lines of one column, table.py:411-412, 437-449 -/
def vertStep (xAbs yAbs vc : Rat) (left : Option (Bd B)) (v : VLine B) : VLine B :=
  let list := if v.interrupted then v.list else modifyLast (fun a => { a with y2 := some (yAbs - vc) }) v.list
  match left with
  | none => ⟨list, true⟩
  | some b =>
    if b.width > 0 then
      if goesOn v.interrupted v.list b then ⟨list, v.interrupted⟩
      else ⟨list ++ [⟨xAbs, yAbs + vc, xAbs, none, b.width, b.look⟩], false⟩
    else ⟨list, true⟩

/-- `process_borders`, table.py:393-449 -/
def TS.processBorders (T : TConf σ P B C) (s : TS σ P B C) (col : Nat) (left top : Option (Bd B)) : TS σ P B C :=
  let vc := correction (bdWidth top) s.topInt s.topLines
  let v := s.vert.getD col ⟨[], true⟩
  let hc := correction (bdWidth left) v.interrupted v.list
  let t := topStep T.widths s.width s.xAbs s.yAbs hc col top s.topLines s.topInt
  { s with topLines := t.1, topInt := t.2, vert := s.vert.modify col (vertStep s.xAbs s.yAbs vc left) }

end Borders

/-- `is_span`, table.py:629-672 -/
def TS.isSpan (s : TS σ P B C) (col : Nat) (left top : Bd B) (isDelayed : Bool) : Bool × Bd B × Bd B × TS σ P B C :=
  match dget col s.rowspan with
  | none =>
    if 0 < s.colspan then
      (true, left.off, if s.isRowspan then top.off else top,
        { s with colspan := s.colspan - 1, isRowspan := s.isRowspan && s.colspan - 1 != 0 })
    else (false, left, top, s)
  | some (rows, cols) =>
    if isDelayed then (false, left, top, s)
    else if rows = 1 then
      (true, left, top.off,
        { s with
          colspan := cols
          isRowspan := cols != 0
          rowspan := ddrop col s.rowspan
          fillsMem := s.fillsMem.map fun e => if e.1 = col then (e.1, { e.2 with later := false }) else e
          maxHeight := if (dget col s.heightsMem).getD 0 > s.maxHeight then (dget col s.heightsMem).getD 0 else s.maxHeight })
    else (true, left, top.off, { s with colspan := cols, isRowspan := true, rowspan := dset col (rows - 1, cols) s.rowspan })

/-- an element of a row: a cell of the content, or a delayed dict -/
inductive RowEl (σ C : Type)
  | cell (c : Option (Cell σ C))
  | late (d : Option (Delayed σ C))
  deriving DecidableEq

/-- `get_cell_style` and table.py:773-779: content, spans, row and style of an element; `None` becomes `''`, and a delayed
dict without content gets the style of the table -/
def TConf.element (T : TConf σ P B C) (index : Nat) : RowEl σ C → Delayed σ C
  | .cell (some c) => ⟨c.style, c.cols, c.rows, index, c.content⟩
  | .late (some d) => match d.content with
    | some _ => d
    | none => { d with style := T.style }
  | .cell none => ⟨T.style, 0, 0, index, some T.blank⟩
  | .late none => ⟨T.style, 0, 0, index, some T.blank⟩

/-- `rowspan = element.get('rowspan', 1) - 1 - self.current_index + row_added`, table.py:778-779 -/
def Delayed.rowsLeft (d : Delayed σ C) (index : Nat) : Int := (d.rows : Int) - index + d.row

/-- the place of the content of a cell -/
structure CellBox where
  x : Rat
  y : Rat
  width : Rat
  height : Rat
  padX : Rat
  padY : Rat
  deriving DecidableEq

/-- `get_cell_dimensions`, table.py:586-627 -/
def TS.cellBox (T : TConf σ P B C) (s : TS σ P B C) (col : Nat) (left top : Bd B) (d : Delayed σ C) : CellBox :=
  let right := T.border s.index (col + d.cols + 1) true
  let bottom := T.border (s.index + d.rowsLeft s.index + 1) col false
  let padX := left.width / 2 + d.style.left + (right.width / 2 + d.style.right)
  let padY := top.width / 2 + d.style.top + (bottom.width / 2 + d.style.bottom)
  ⟨s.xAbs + (left.width / 2 + d.style.left), s.yAbs - (top.width / 2 + d.style.top),
    cellWidth T.widths s.width col (d.cols + 1) - padX, s.rowMax - padY, padX, padY⟩

/-- `_setup_cell_fill`, table.py:719-744 -/
def TS.setFill (T : TConf σ P B C) (s : TS σ P B C) (col : Nat) (own : Option C) (width : Rat) (later : Bool) : TS σ P B C :=
  match own.or (T.fillDef s.index col) with
  | none => s
  | some c => { s with fillsMem := dset col ⟨s.xAbs, s.yAbs, width, 0, c, later⟩ s.fillsMem }

/-- table.py:816-819, 865-872, 948-957: what the content of the cell adds -/
def TS.addOut (s : TS σ P B C) (col : Nat) (d : Delayed σ C) (o : CellOut σ P B C) : TS σ P B C :=
  { s with
    parts := s.parts ++ o.parts
    lines := s.lines ++ o.lines
    fills := s.fills ++ o.fills
    delayed := if o.finished then ddrop col s.delayed else dset col { d with content := some o.next } s.delayed }

/-- the running of the content of a cell: new state, height -/
def TS.addContent (T : TConf σ P B C) (s : TS σ P B C) (col : Nat) (d : Delayed σ C) (b : CellBox) :
    Except PyErr (Rat × TS σ P B C) :=
  match d.content with
  | none => .ok (0, { s with delayed := dset col d s.delayed })
  | some c => match T.exec c b.x b.y b.width b.height with
    | .error e => .error e
    | .ok o => .ok (o.height, s.addOut col d o)

/-- table.py:821-826: the height of the cell and of the row -/
def TS.addHeight (s : TS σ P B C) (col : Nat) (rowsLeft : Int) (padY h : Rat) : TS σ P B C :=
  let h := if h > 0 then h + padY else h + if s.firstRow then 0 else 4
  if rowsLeft > 0 then { s with heightsMem := dset col h s.heightsMem, maxHeight := if 0 > s.maxHeight then 0 else s.maxHeight }
  else { s with maxHeight := if h > s.maxHeight then h else s.maxHeight }

/-- `add_cell`, table.py:752-828 -/
def TS.addCell [DecidableEq B] (T : TConf σ P B C) (s : TS σ P B C) (col : Nat) (el : RowEl σ C) (isDelayed : Bool) :
    Except PyErr (TS σ P B C) :=
  let s := { s with xAbs := colX T.widths s.x s.width col }
  let r := s.isSpan col (T.border s.index col true) (T.border s.index col false) isDelayed
  let s := r.2.2.2.processBorders T col (some r.2.1) (some r.2.2.1)
  if r.1 then .ok s
  else
    let d := T.element s.index el
    let s := { s with
      colspan := d.cols
      rowspan := if d.rowsLeft s.index > 0 then dset col ((d.rowsLeft s.index).toNat, d.cols) s.rowspan else s.rowspan }
    let b := s.cellBox T col r.2.1 r.2.2.1 d
    match (s.setFill T col d.style.fill (b.width + b.padX) (decide (d.rowsLeft s.index > 0))).addContent T col d b with
    | .error e => .error e
    | .ok (h, s) => .ok (s.addHeight col (d.rowsLeft s.index) b.padY h)

/-- the cells of a row from column `col`, table.py:548-551 -/
def TS.addCells [DecidableEq B] (T : TConf σ P B C) (isDelayed : Bool) : Nat → List (RowEl σ C) → TS σ P B C → Except PyErr (TS σ P B C)
  | _, [], s => .ok s
  | col, el :: l, s => match s.addCell T col el isDelayed with
    | .error e => .error e
    | .ok s => s.addCells T isDelayed (col + 1) l

/-- what to do after a row -/
inductive RowAct
  | cancel
  | continue
  | interrupt
  deriving DecidableEq

/-- table.py:558-564: whether the table can go on with the next row -/
def TS.canGoOn (T : TConf σ P B C) (s : TS σ P B C) : Bool :=
  (s.delayed.map fun e => e.2.cols + 1).sum ≠ T.cols ∧ s.delayed.all fun e => (dget e.1 s.rowspan).isSome

/-- table.py:575-580: a fill after the height of the row is known -/
def TFill.grow (h : Rat) (f : TFill C) : TFill C := { f with height := f.height + h }

/-- the end of `add_row`, table.py:553-584 -/
def TS.endRow [DecidableEq B] (T : TConf σ P B C) (s : TS σ P B C) : TS σ P B C :=
  let ret := s.canGoOn T
  let s := { s with xAbs := s.x + s.width }
  let s := s.processBorders T T.cols (some (T.border s.index T.cols true)) none
  let fs := s.fillsMem.map fun e => (e.1, e.2.grow s.maxHeight)
  let out := fs.filter fun e => !e.2.later || !ret
  { s with
    lines := s.lines ++ s.topLines
    heightsMem := s.heightsMem.map fun e => (e.1, e.2 - s.maxHeight)
    fills := s.fills ++ out.map fun e => { e.2 with y := e.2.y - e.2.height }
    fillsMem := fs.filter fun e => e.2.later && ret
    currentHeight := s.currentHeight + s.maxHeight }

/-- `add_row`, table.py:525-584 -/
def TS.addRow [DecidableEq B] (T : TConf σ P B C) (s : TS σ P B C) (row : List (RowEl σ C)) (isDelayed : Bool) :
    Except PyErr (RowAct × TS σ P B C) :=
  if row.length ≠ T.cols then .error .exception
  else
    let s := { s with
      maxHeight := 0
      rowMax := s.height - s.currentHeight
      colspan := 0
      topLines := []
      topInt := true
      isRowspan := false
      yAbs := s.y - s.currentHeight }
    match s.addCells T isDelayed 0 row with
    | .error e => .error e
    | .ok s =>
      if s.firstRow ∧ s.maxHeight = 0 then .ok (.cancel, { s with firstRow := false })
      else
        let s := { s with firstRow := false }
        .ok (if s.canGoOn T then .continue else .interrupt, s.endRow T)

/-- the rows from the current one on, table.py:489-505; the flag tells whether the table was cancelled -/
def TS.addRows [DecidableEq B] (T : TConf σ P B C) : List (List (Option (Cell σ C))) → TS σ P B C → Except PyErr (Bool × TS σ P B C)
  | [], s => .ok (false, s)
  | row :: l, s => match s.addRow T (row.map .cell) false with
    | .error e => .error e
    | .ok (.cancel, s) => .ok (true, s)
    | .ok (.continue, s) => TS.addRows T l { s with index := s.index + 1 }
    | .ok (.interrupt, s) => .ok (false, s)

/-- the bottom line of one column, table.py:510-513 -/
def TS.closeCol [DecidableEq B] (T : TConf σ P B C) (s : TS σ P B C) (col : Nat) : TS σ P B C :=
  let s := { s with xAbs := colX T.widths s.x s.width col }
  s.processBorders T col none (some (T.border s.index col false))

/-- the end of `run`, table.py:507-523 -/
def TS.close [DecidableEq B] (T : TConf σ P B C) (s : TS σ P B C) : TS σ P B C :=
  let s := { s with topLines := [], topInt := true, yAbs := s.y - s.currentHeight }
  let s := (List.range T.cols).foldl (fun s col => s.closeCol T col) s
  let s := { s with xAbs := s.x + s.width }
  let s := s.processBorders T T.cols none none
  { s with
    lines := s.lines ++ s.topLines ++ s.vert.flatMap (·.list)
    finished := s.finished || (decide (T.content.length ≤ s.index) && s.delayed.isEmpty) }

/-- the start of `run`, table.py:467-478 -/
def TS.clear (T : TConf σ P B C) (s : TS σ P B C) (x y width height : Rat) : TS σ P B C :=
  { s with
    x := x
    y := y
    width := width
    height := height
    parts := []
    lines := []
    fills := []
    fillsMem := []
    heightsMem := []
    rowspan := []
    vert := List.replicate (T.cols + 1) ⟨[], true⟩
    currentHeight := 0 }

/-- the delayed row, table.py:480-487: the row was completed, or the table was cancelled (which is treated like an interruption) -/
def TS.addLate [DecidableEq B] (T : TConf σ P B C) (s : TS σ P B C) : Except PyErr (Bool × TS σ P B C) :=
  if s.delayed.isEmpty then .ok (true, s)
  else match s.addRow T ((List.range T.cols).map fun i => .late (dget i s.delayed)) true with
    | .error e => .error e
    | .ok (.continue, s) => .ok (true, { s with index := s.index + 1 })
    | .ok (_, s) => .ok (false, s)

/-- `run`, table.py:451-523 -/
def TS.run [DecidableEq B] (T : TConf σ P B C) (s : TS σ P B C) (x y width height : Rat) : Except PyErr (TS σ P B C) :=
  match (s.clear T x y width height).addLate T with
  | .error e => .error e
  | .ok (false, s) => .ok (s.close T)
  | .ok (true, s) => match s.addRows T (T.content.drop s.index) with
    | .error e => .error e
    | .ok (true, s) => .ok { s with parts := [], lines := [], fills := [] }
    | .ok (false, s) => .ok (s.close T)

/-- running a table over several rectangles: all the parts, and the table -/
def TS.runs [DecidableEq B] (T : TConf σ P B C) : List (Rat × Rat × Rat × Rat) → TS σ P B C → Except PyErr (List P × TS σ P B C)
  | [], s => .ok ([], s)
  | (x, y, w, h) :: l, s => match s.run T x y w h with
    | .error e => .error e
    | .ok s => match TS.runs T l s with
      | .error e => .error e
      | .ok (ps, s') => .ok (s.parts ++ ps, s')

end Verif
