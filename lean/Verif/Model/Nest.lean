import Verif.Model.Cells
import Verif.Model.Content
/-! Model of tables and content boxes inside each other: `process_content` and `process_table` of a table (table.py:917-1002) and
`process_table` of a content box (content.py:955-1013).

Simplifications. As for paragraphs (Model/Cells), the state of an inner table or box is what it was made from and the rectangles it has been run in: between two runs
`set_state` gives it back what `get_state` had read from it. An inner box has one column: with several, the attempts of balancing
would run an inner table again from a state that `set_state` does not restore. The loops of a box get a number of steps; if they are used up the
result is an error. Every paragraph and every image has a number, its tag, that does not matter for the code. A box that is an element of a box is another thing (`CEl.child`), and so
is an image there (`CEl.image`). `Λ` is the type of paragraphs and images, `Q` that of their parts, `leaf` the function that runs them:
`leafExec` of Model/Cells, or `docExec` of Model/PdfFlow, which makes their streams as well. -/
namespace Verif

/-- a table as it is given: `TConf` without the function for its contents -/
structure TabData (σ B C : Type) where
  content : List (List (Option (Cell σ C)))
  cols : Nat
  widths : List Rat
  border : Int → Int → Bool → Bd B
  fillDef : Int → Int → Option C
  style : CellStyle C
  blank : σ

def TabData.conf {σ P B C : Type} (D : TabData σ B C) (exec : σ → Rat → Rat → Rat → Rat → Except PyErr (CellOut σ P B C)) : TConf σ P B C :=
  ⟨D.content, D.cols, D.widths, D.border, D.fillDef, D.style, D.blank, exec⟩

/-- a paragraph or image, a table or a box, whose contents are of type `σ`; the rectangles are the ones it has been run in -/
inductive Node (Λ σ B C : Type)
  | leaf (tag : Nat) (l : Λ)
  | table (D : TabData σ B C) (rects : List (Rat × Rat × Rat × Rat))
  | box (gap : Option Rat) (els : List (CEl σ)) (rects : List (Rat × Rat × Rat × Rat))

/-- what is added to `parts`: a part of a paragraph or image with its tag, or an image of a box -/
abbrev TagPart (Q : Type) := CPart (Nat × Q)

/-- the parts of a box become parts of the table around it, table.py:944 -/
def CPart.join {Q : Type} : CPart (TagPart Q) → TagPart Q
  | .leaf p => p
  | .image n x y w h => .image n x y w h

variable {Λ Q σ B C : Type}

/-- `process_text` and `process_image`, table.py:830-915 -/
def tagExec (leaf : Λ → Rat → Rat → Rat → Rat → Except PyErr (CellOut Λ Q B C)) (tag : Nat) (l : Λ) (x y w h : Rat) : Except PyErr (CellOut (Node Λ σ B C) (TagPart Q) B C) :=
  match leaf l x y w h with
  | .error e => .error e
  | .ok o => .ok ⟨o.parts.map fun p => .leaf (tag, p), o.lines, o.fills, o.height, o.finished, .leaf tag o.next⟩

/-- `process_table`, table.py:955-1002, content.py:955-1013 -/
def tableExec [DecidableEq B] (exec : σ → Rat → Rat → Rat → Rat → Except PyErr (CellOut σ (TagPart Q) B C)) (D : TabData σ B C)
    (rects : List (Rat × Rat × Rat × Rat)) (x y w h : Rat) : Except PyErr (CellOut (Node Λ σ B C) (TagPart Q) B C) :=
  match (TS.new 0 0 0 0).runs (D.conf exec) rects with
  | .error e => .error e
  | .ok (_, s) =>
    if s.finished then .ok ⟨[], [], [], 0, true, .table D rects⟩
    else match s.run (D.conf exec) x y w h with
      | .error e => .error e
      | .ok s => .ok ⟨s.parts, s.lines, s.fills, s.currentHeight, s.finished, .table D (rects ++ [(x, y, w, h)])⟩

/-- steps used up count as an error here -/
def CRun.flat {α : Type} : CRun α → Except PyErr α
  | .ok a => .ok a
  | .error (some e) => .error e
  | .error none => .error .exception

/-- `process_content`, table.py:917-953 -/
def boxExec (fuel : Nat) (exec : σ → Rat → Rat → Rat → Rat → Except PyErr (CellOut σ (TagPart Q) B C)) (gap : Option Rat) (els : List (CEl σ))
    (rects : List (Rat × Rat × Rat × Rat)) (x y w h : Rat) : Except PyErr (CellOut (Node Λ σ B C) (TagPart Q) B C) :=
  match ((CContent.new 1 gap els).runs exec fuel rects).flat with
  | .error e => .error e
  | .ok (_, s) =>
    if s.finished then .ok ⟨[], [], [], 0, true, .box gap els rects⟩
    else match (s.run exec fuel x y w h).flat with
      | .error e => .error e
      | .ok s => .ok ⟨s.out.parts.map CPart.join, s.out.lines, s.out.fills, s.currentHeight, s.finished, .box gap els (rects ++ [(x, y, w, h)])⟩

/-- running a paragraph, image, table or box -/
def nodeExec [DecidableEq B] (leaf : Λ → Rat → Rat → Rat → Rat → Except PyErr (CellOut Λ Q B C)) (fuel : Nat) (exec : σ → Rat → Rat → Rat → Rat → Except PyErr (CellOut σ (TagPart Q) B C)) :
    Node Λ σ B C → Rat → Rat → Rat → Rat → Except PyErr (CellOut (Node Λ σ B C) (TagPart Q) B C)
  | .leaf tag l => tagExec leaf tag l
  | .table D rects => tableExec exec D rects
  | .box gap els rects => boxExec fuel exec gap els rects

/-- paragraphs, images, tables and boxes up to `n` deep -/
def Nest (Λ B C : Type) : Nat → Type
  | 0 => Empty
  | n + 1 => Node Λ (Nest Λ B C n) B C

def nestExec [DecidableEq B] (leaf : Λ → Rat → Rat → Rat → Rat → Except PyErr (CellOut Λ Q B C)) (fuel : Nat) :
    (n : Nat) → Nest Λ B C n → Rat → Rat → Rat → Rat → Except PyErr (CellOut (Nest Λ B C n) (TagPart Q) B C)
  | 0 => fun c => c.elim
  | n + 1 => nodeExec leaf fuel (nestExec leaf fuel n)

/-- running in one rectangle after the other, until it is finished: all the parts, and whether it is finished -/
def runThrough {P : Type} (exec : σ → Rat → Rat → Rat → Rat → Except PyErr (CellOut σ P B C)) :
    List (Rat × Rat × Rat × Rat) → σ → Except PyErr (List P × Bool)
  | [], _ => .ok ([], false)
  | (x, y, w, h) :: l, c => match exec c x y w h with
    | .error e => .error e
    | .ok o =>
      if o.finished then .ok (o.parts, true)
      else match runThrough exec l o.next with
        | .error e => .error e
        | .ok (ps, b) => .ok (o.parts ++ ps, b)

end Verif
