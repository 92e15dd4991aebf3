import Verif.Model.Range
import Verif.PyDict
import Mathlib.Algebra.Order.Field.Rat
/-!
# Model of the set-up of `PDFTable` (table.py:157-260, 318-378)

Widths, borders, fills and checkpoints. Numbers are exact rationals; border attributes are values of an
arbitrary type `V` (the code only stores them) with `mk` for `PDFColor(·, True)`.
-/
namespace Verif

/-- nested dict `d[i][j]` -/
abbrev Grid (V : Type) := List (Int × List (Int × V))

/-- `first = d.setdefault(i, {}); first[j] = v`, table.py:340-341, 377-378 -/
def gridSet {V : Type} (g : Grid V) (i j : Int) (v : V) : Grid V :=
  dset i (dset j v ((dget i g).getD [])) g

/-- `d[i][j]` when both keys are there, table.py:356-357 -/
def gridGet {V : Type} (g : Grid V) (i j : Int) : Option V := (dget i g).bind (dget j)

/-- an entry of the `borders` argument: `pos` and the other keys -/
structure BorderDef (V : Type) where
  pos : Option Str
  attrs : List (Str × V)

/-- table.py:330-332: the default border overridden by the entry, with its colour converted; the default
border has the key `color` (table.py:257-258), so the lookup succeeds -/
def borderOf {V : Type} (mk : V → Except PyErr V) (dflt : List (Str × V)) (d : BorderDef V) :
    Except PyErr (List (Str × V)) :=
  let border := dupdate dflt d.attrs
  match dget c!"color" border with
  | none => .error .keyError
  | some c => match mk c with
    | .error e => .error e
    | .ok c => .ok (dset c!"color" c border)

/-- all the positions of one entry -/
def gridFill {V : Type} (v : V) (g : Grid V) (l : List (Int × Int)) : Grid V :=
  l.foldl (fun g p => gridSet g p.1 p.2 v) g

/-- `pos[0].lower() == 'v'`, table.py:336 -/
def isVertChar (c : Char) : Bool := c == 'v' || c == 'V'

/-- `setup_borders`, table.py:318-341, on (`borders_h`, `borders_v`) -/
def setupBorders {V : Type} (mk : V → Except PyErr V) (dflt : List (Str × V)) (rows cols : Nat) :
    Grid (List (Str × V)) × Grid (List (Str × V)) → List (BorderDef V) →
    Except PyErr (Grid (List (Str × V)) × Grid (List (Str × V)))
  | g, [] => .ok g
  | (h, v), d :: l => match borderOf mk dflt d with
    | .error e => .error e
    | .ok b => match d.pos with
      | none => setupBorders mk dflt rows cols (h, v) l
      | some [] => .error .indexError
      | some (c :: pos) =>
        if isVertChar c then match posList pos rows (cols + 1) with
          | .error e => .error e
          | .ok ps => setupBorders mk dflt rows cols (h, gridFill b v ps) l
        else match posList pos (rows + 1) cols with
          | .error e => .error e
          | .ok ps => setupBorders mk dflt rows cols (gridFill b h ps, v) l

/-- `get_border`, table.py:343-359 (the copies are covered by C54) -/
def getBorder {V : Type} (dflt : List (Str × V)) (g : Grid (List (Str × V)) × Grid (List (Str × V))) (i j : Int)
    (vert : Bool) : List (Str × V) := (gridGet (if vert then g.2 else g.1) i j).getD dflt

/-- an entry of the `fills` argument -/
structure FillDef (V : Type) where
  pos : Option Str
  color : V

/-- `setup_fills`, table.py:361-378 -/
def setupFills {V : Type} (rows cols : Nat) : Grid V → List (FillDef V) → Except PyErr (Grid V)
  | g, [] => .ok g
  | g, d :: l => match d.pos with
    | none => setupFills rows cols g l
    | some pos => match posList pos rows cols with
      | .error e => .error e
      | .ok ps => setupFills rows cols (gridFill d.color g ps) l

/-- `_setup_cell_fill`, table.py:731-736: the fill of a cell -/
def cellFill {V : Type} (g : Grid V) (own : Option V) (i j : Int) : Option V := own.or (gridGet g i j)

/-! ### Widths -/

/-- table.py:178-191 -/
def tableWidths (cols : Nat) : Option (List Rat) → Except PyErr (List Rat)
  | some ws => if ws.length ≠ cols then .error .exception
    else if ws.sum = 0 ∧ ws ≠ [] then .error .exception
    else .ok (ws.map fun w => w / ws.sum)
  | none => .ok (List.replicate cols (1 / (cols : Rat)))

/-- `self.x + sum(self.widths[0:col]) * self.width`, table.py:511, 765 -/
def colX (ws : List Rat) (x width : Rat) (col : Nat) : Rat := x + (ws.take col).sum * width

/-- `sum(self.widths[col:col + colspan + 1]) * self.width`, table.py:612; `span` is the number of columns -/
def cellWidth (ws : List Rat) (width : Rat) (col span : Nat) : Rat := ((ws.drop col).take span).sum * width

/-- `x2 = self.x_abs + self.widths[col] * self.width`, table.py:421: the right end of a top border -/
def colRight (ws : List Rat) (x width : Rat) (col : Nat) : Rat := colX ws x width col + ws.getD col 0 * width

/-! ### Checkpoints -/

/-- the attributes of a table `get_state` and `set_state` deal with -/
structure TableMark (D : Type) where
  currentIndex : Nat
  delayed : D

/-- `set_state`, table.py:234-249 -/
def tableSetState {D : Type} (t : TableMark D) (currentIndex : Option Nat) (delayed : Option D) : TableMark D :=
  match currentIndex, delayed with
  | some i, _ => { t with currentIndex := i }
  | none, some d => { t with delayed := d }
  | none, none => t

/-- `set_state(**get_state())`, table.py:221-232 -/
def tableRestore {D : Type} (t saved : TableMark D) : TableMark D :=
  tableSetState t (some saved.currentIndex) (some saved.delayed)

end Verif
