import Verif.Spec.Tables
/-!
# The lines of a table

What the lines of a table should be, given the borders above and to the left of every position: stretches of equal borders
are drawn as one line, and the lines meet in the corners. -/
namespace Verif.Spec

/-- the stretches of equal entries of a list that is given backwards, the last stretch first: first position, position after the
last one, entry. Positions count from the end of the given list. -/
def stretchesR {α : Type} [DecidableEq α] : List (Option α) → List (Nat × Nat × α)
  | [] => []
  | none :: l => stretchesR l
  | some a :: l => match stretchesR l with
    | (i, j, b) :: r => if j = l.length ∧ b = a then (i, j + 1, a) :: r else (l.length, l.length + 1, a) :: (i, j, b) :: r
    | [] => [(l.length, l.length + 1, a)]

/-- the stretches of equal entries of a list -/
def stretches {α : Type} [DecidableEq α] (l : List (Option α)) : List (Nat × Nat × α) := (stretchesR l.reverse).reverse

/-- a border of some width -/
def seen {B : Type} (b : Bd B) : Option (Bd B) := if 0 < b.width then some b else none

/-- a row of the grid: where it begins, the borders above its positions and the borders to the left of them, with the right
edge as last one. The row after the last one has no borders at the left. -/
structure GridRow (B : Type) where
  y : Rat
  tops : List (Bd B)
  lefts : List (Bd B)
  deriving DecidableEq

variable {B : Type}

def topY (rows : List (GridRow B)) (r : Nat) : Rat := ((rows[r]?).map (·.y)).getD 0
def topWidth (rows : List (GridRow B)) (r c : Nat) : Rat := bdWidth ((rows[r]?).bind fun g => g.tops[c]?)
def leftWidth (rows : List (GridRow B)) (r c : Nat) : Rat := bdWidth ((rows[r]?).bind fun g => g.lefts[c]?)

/-- a cell as it is drawn: its first row and column, the numbers of further rows and columns, and its colour -/
structure Tile (C : Type) where
  row : Nat
  col : Nat
  rows : Nat
  cols : Nat
  color : Option C
  deriving DecidableEq

/-- a position belongs to a cell -/
def Tile.Covers {C : Type} (e : Tile C) (r c : Nat) : Prop := e.row ≤ r ∧ r ≤ e.row + e.rows ∧ e.col ≤ c ∧ c ≤ e.col + e.cols

/-- the left border of a position is inside a cell -/
def InsideLeft {C : Type} (cells : List (Tile C)) (r c : Nat) : Prop := ∃ e ∈ cells, e.Covers r c ∧ e.col < c

/-- the top border of a position is inside a cell -/
def InsideTop {C : Type} (cells : List (Tile C)) (r c : Nat) : Prop := ∃ e ∈ cells, e.Covers r c ∧ e.row < r

/-- a border that is drawn unless it is inside a cell -/
def Unless {B : Type} (inside : Prop) (b x : Bd B) : Prop := (inside ∧ x = b.off) ∨ (¬ inside ∧ x = b)

/-- the box of a cell in a table with `m` rows that begin at `Y`: the rest of the cell is cut off -/
def Tile.box {C : Type} (X Y : Nat → Rat) (m : Nat) (e : Tile C) : Option (TFill C) :=
  e.color.map fun c => ⟨X e.col, Y (min (e.row + e.rows + 1) m), X (e.col + e.cols + 1) - X e.col,
    Y e.row - Y (min (e.row + e.rows + 1) m), c, decide (m ≤ e.row + e.rows)⟩

/-- the cells of a table of `n` columns do not overlap and stay in the table -/
structure RectsOk {σ C : Type} (content : List (List (Option (Cell σ C)))) (n : Nat) : Prop where
  apart : ∀ i j c i' j' c' p q, cellAt content i j = some c → cellAt content i' j' = some c' →
    i ≤ p → p ≤ i + c.rows → j ≤ q → q ≤ j + c.cols → i' ≤ p → p ≤ i' + c'.rows → j' ≤ q → q ≤ j' + c'.cols → i = i' ∧ j = j'
  inside : ∀ i j c, cellAt content i j = some c → i + c.rows < content.length ∧ j + c.cols < n

/-- half the width of the widest of the two vertical lines that meet at the left upper corner of a position -/
def cornerX (rows : List (GridRow B)) (r c : Nat) : Rat := max (leftWidth rows r c) (if r = 0 then 0 else leftWidth rows (r - 1) c) / 2

/-- half the width of the widest of the two horizontal lines that meet at the left upper corner of a position -/
def cornerY (rows : List (GridRow B)) (r c : Nat) : Rat := max (topWidth rows r c) (if c = 0 then 0 else topWidth rows r (c - 1)) / 2

/-- a line above the positions `i` to `j - 1` of row `r` -/
def rowLine (X : Nat → Rat) (rows : List (GridRow B)) (r i j : Nat) (b : Bd B) : BLine B :=
  ⟨X i - cornerX rows r i, topY rows r, X j + cornerX rows r j, some (topY rows r), b.width, b.look⟩

/-- a line at the left of the positions of column `c` in rows `i` to `j - 1` -/
def colLine (X : Nat → Rat) (rows : List (GridRow B)) (c i j : Nat) (b : Bd B) : BLine B :=
  ⟨X c, topY rows i + cornerY rows i c, X c, some (topY rows j - cornerY rows j c), b.width, b.look⟩

variable [DecidableEq B]

/-- the lines above the positions of row `r` -/
def rowLines (X : Nat → Rat) (rows : List (GridRow B)) (r : Nat) : List (BLine B) :=
  (stretches (((rows[r]?).map fun g => g.tops.map seen).getD [])).map fun s => rowLine X rows r s.1 s.2.1 s.2.2

/-- the lines at the left of column `c` -/
def colLines (X : Nat → Rat) (rows : List (GridRow B)) (c : Nat) : List (BLine B) :=
  (stretches (rows.map fun g => (g.lefts[c]?).bind seen)).map fun s => colLine X rows c s.1 s.2.1 s.2.2

/-- all lines of a grid with `n` columns -/
def gridLines (X : Nat → Rat) (n : Nat) (rows : List (GridRow B)) : List (BLine B) :=
  (List.range rows.length).flatMap (rowLines X rows) ++ (List.range (n + 1)).flatMap (colLines X rows)

/-- the cell that begins at a position of a run that begins at row `base`: a cell that was broken before (`late`), a cell of the
content, or an empty one -/
def tileAt {σ P C : Type} (T : TConf σ P B C) (late : Option (List (Nat × Delayed σ C))) (base r c : Nat) : Tile C :=
  match late, r with
  | some l, 0 => match dget c l with
    | some d => ⟨0, c, d.row + d.rows - base, d.cols, (if d.content.isSome then d.style.fill else T.style.fill).or (T.fillDef base c)⟩
    | none => ⟨0, c, 0, 0, T.style.fill.or (T.fillDef base c)⟩
  | _, r => match cellAt T.content (base + r) c with
    | some cell => ⟨r, c, cell.rows, cell.cols, cell.style.fill.or (T.fillDef (base + r : Nat) c)⟩
    | none => ⟨r, c, 0, 0, T.style.fill.or (T.fillDef (base + r : Nat) c)⟩

/-- what begins at a position of a run: its content, its margins, and the row of the table after its last one -/
structure Held (σ C : Type) where
  content : Option σ
  style : CellStyle C
  below : Nat

def heldAt {σ P C : Type} (T : TConf σ P B C) (late : Option (List (Nat × Delayed σ C))) (base r c : Nat) : Held σ C :=
  match late, r with
  | some l, 0 => match dget c l with
    | some d => ⟨d.content, if d.content.isSome then d.style else T.style, d.row + d.rows + 1⟩
    | none => ⟨some T.blank, T.style, base + 1⟩
  | _, r => match cellAt T.content (base + r) c with
    | some cell => ⟨cell.content, cell.style, base + r + cell.rows + 1⟩
    | none => ⟨some T.blank, T.style, base + r + 1⟩

section
variable {σ P C : Type} (T : TConf σ P B C) (late : Option (List (Nat × Delayed σ C))) (base : Nat) (e : Tile C)

/-- what is kept free at the sides of a cell: half of its borders, and its margins -/
def padLeft : Rat := (T.border (base + e.row : Nat) e.col true).width / 2 + (heldAt T late base e.row e.col).style.left
def padRight : Rat := (T.border (base + e.row : Nat) (e.col + e.cols + 1 : Nat) true).width / 2 + (heldAt T late base e.row e.col).style.right
def padTop : Rat := (T.border (base + e.row : Nat) e.col false).width / 2 + (heldAt T late base e.row e.col).style.top
def padBottom : Rat := (T.border (heldAt T late base e.row e.col).below e.col false).width / 2 + (heldAt T late base e.row e.col).style.bottom

/-- the content of a cell was run inside of its borders and margins, in the room down to `floor`; and if all rows of the cell are there
(the table has `n` rows), they are high enough for what it needs -/
structure Placed (X Y : Nat → Rat) (floor : Rat) (n : Nat) (o : CellOut σ P B C) : Prop where
  run : ∃ c, (heldAt T late base e.row e.col).content = some c ∧
    T.exec c (X e.col + padLeft T late base e) (Y e.row - padTop T late base e) (X (e.col + e.cols + 1) - X e.col - padLeft T late base e - padRight T late base e)
      (Y e.row - padTop T late base e - (floor + padBottom T late base e)) = .ok o
  room : 0 < o.height → e.row + e.rows < n → Y (e.row + e.rows + 1) + padBottom T late base e ≤ Y e.row - padTop T late base e - o.height

end

/-- a drawing of the rows of a table from `base` on: the rows, the cells, and what the contents of the cells added. `X` is where
the columns begin; the run ended at row `last`, at height `bottom`, and had room down to `floor`. -/
structure Drawing {σ P C : Type} (T : TConf σ P B C) (X : Nat → Rat) (y : Rat) (late : Option (List (Nat × Delayed σ C))) (base last : Nat) (bottom floor : Rat)
    (rows : List (GridRow B)) (cells : List (Tile C)) (outs : List (Tile C × CellOut σ P B C)) (parts : List P) (lines : List (BLine B)) (fills : List (TFill C)) :
    Prop where
  /-- the rows are one below the other, from `y` to `bottom` -/
  top : topY rows 0 = y
  down : ∀ r, r + 1 < rows.length → topY rows (r + 1) ≤ topY rows r
  ends : rows ≠ [] ∧ topY rows (rows.length - 1) = bottom
  /-- all rows were drawn, or the last one was broken -/
  reached : (last = base + (rows.length - 1) ∧ T.content.length ≤ last) ∨ last + 1 = base + (rows.length - 1)
  /-- the cells cover all positions, and every position once -/
  cover : ∀ r c, r + 1 < rows.length → c < T.cols → ∃ e ∈ cells, e.Covers r c ∧ ∀ e' ∈ cells, e'.Covers r c → e' = e
  inside : ∀ e ∈ cells, e.row + 1 < rows.length ∧ e.col + e.cols < T.cols
  once : cells.Nodup
  source : ∀ e ∈ cells, e = tileAt T late base e.row e.col
  /-- every cell of the content is there -/
  all : ∀ r c cell, r + 1 < rows.length → late = none ∨ 0 < r → c < T.cols → cellAt T.content (base + r) c = some cell → tileAt T late base r c ∈ cells
  /-- the borders are those of the table, but not inside cells -/
  left : ∀ (r c : Nat), r + 1 < rows.length → c < T.cols → ∃ b, (rows[r]?.bind (·.lefts[c]?)) = some b ∧
    Unless (InsideLeft cells r c) (T.border (base + r : Nat) c true) b
  above : ∀ (r c : Nat), r + 1 < rows.length → c < T.cols → ∃ b, (rows[r]?.bind (·.tops[c]?)) = some b ∧
    Unless (InsideTop cells r c) (T.border (base + r : Nat) c false) b
  right : ∀ r, r + 1 < rows.length → (rows[r]?.bind (·.lefts[T.cols]?)) = some (T.border (base + r : Nat) T.cols true)
  lens : ∀ g ∈ rows, g.tops.length = T.cols
  /-- the lower border of the last row is the upper border of row `last` -/
  below : ∀ g, rows.getLast? = some g → g.tops = (List.range T.cols).map (fun c : Nat => T.border last c false) ∧ g.lefts = []
  /-- the contents of the cells, each run once and in its cell -/
  ran : ∀ p ∈ outs, Placed T late base p.1 X (topY rows) floor (rows.length - 1) p.2
  order : (outs.map Prod.fst).Sublist cells
  full : ∀ e ∈ cells, (heldAt T late base e.row e.col).content.isSome → e ∈ outs.map Prod.fst
  /-- nothing else is drawn -/
  added : parts = outs.flatMap (·.2.parts)
  drawn : lines.Perm (outs.flatMap (·.2.lines) ++ gridLines X T.cols rows)
  filled : fills.Perm (outs.flatMap (·.2.fills) ++ cells.filterMap (Tile.box X (topY rows) (rows.length - 1)))

/-- no cell is only one column wide and more than two rows high, or all cells are one column wide -/
def FlagOk {σ C : Type} (content : List (List (Option (Cell σ C)))) : Prop :=
  (∀ i j c, cellAt content i j = some c → c.rows ≤ 1 ∨ 0 < c.cols) ∨ ∀ i j c, cellAt content i j = some c → c.cols = 0

end Verif.Spec
