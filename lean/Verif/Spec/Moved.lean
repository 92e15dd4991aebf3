import Verif.Model.PdfFlow
/-! What runs of tables and content boxes leave, and the same in other places. -/
namespace Verif

variable {σ P B C : Type}

/-- a line, moved -/
def BLine.mv (dx dy : Rat) (l : BLine B) : BLine B := ⟨l.x1 + dx, l.y1 + dy, l.x2 + dx, l.y2.map (· + dy), l.width, l.look⟩

/-- a fill, moved -/
def TFill.mv (dx dy : Rat) (f : TFill C) : TFill C := ⟨f.x + dx, f.y + dy, f.width, f.height, f.color, f.later⟩

/-- a part of a box, moved; `m` moves a part of its contents -/
def CPart.mv (m : P → P) (dx dy : Rat) : CPart P → CPart P
  | .leaf p => .leaf (m p)
  | .image n x y w h => .image n (x + dx) (y + dy) w h

/-- a paragraph or image of a document, moved -/
def DocPart.mv (dx dy : Rat) : DocPart → DocPart
  | .par x y w h text graphics used ids cfg lines => .par (x + dx) (y + dy) w h text graphics used ids cfg lines
  | .image im x y w h => .image im (x + dx) (y + dy) w h

/-- the same with its tag -/
def TagPart.mv {Q : Type} (m : Rat → Rat → Q → Q) (dx dy : Rat) : TagPart Q → TagPart Q := CPart.mv (fun p => (p.1, m dx dy p.2)) dx dy

namespace Spec

/-- what a run leaves: parts, lines and fills; the height it took, and whether nothing is left -/
structure RunLeft (P B C : Type) where
  parts : List P
  lines : List (BLine B)
  fills : List (TFill C)
  height : Rat
  finished : Bool
  deriving DecidableEq

/-- all of it moved, the height and the end the same -/
def RunLeft.mv (m : Rat → Rat → P → P) (dx dy : Rat) (d : RunLeft P B C) : RunLeft P B C :=
  ⟨d.parts.map (m dx dy), d.lines.map (BLine.mv dx dy), d.fills.map (TFill.mv dx dy), d.height, d.finished⟩

/-- a rectangle: left, top, width and height -/
abbrev RunRect := Rat × Rat × Rat × Rat

/-- rectangles, each with a distance it is moved by -/
abbrev Moves := List (RunRect × Rat × Rat)

def Moves.before (l : Moves) : List RunRect := l.map (·.1)

def Moves.after (l : Moves) : List RunRect := l.map fun p => (p.1.1 + p.2.1, p.1.2.1 + p.2.2, p.1.2.2)

/-- what was left in the rectangles, each moved with its rectangle -/
def Moves.move (l : Moves) (m : Rat → Rat → P → P) (ds : List (RunLeft P B C)) : List (RunLeft P B C) := List.zipWith (fun p d => d.mv m p.2.1 p.2.2) l ds

/-- what a paragraph or image leaves follows its rectangle; `m` moves a part -/
def FollowsRect (exec : σ → Rat → Rat → Rat → Rat → Except PyErr (CellOut σ P B C)) (m : Rat → Rat → P → P) : Prop :=
  (∀ p, m 0 0 p = p) ∧ ∀ c x y w h dx dy, exec c (x + dx) (y + dy) w h = (exec c x y w h).map fun o =>
    ⟨o.parts.map (m dx dy), o.lines.map (BLine.mv dx dy), o.fills.map (TFill.mv dx dy), o.height, o.finished, o.next⟩

/-- running in one rectangle after the other until nothing is left: what each run leaves -/
def drawings (exec : σ → Rat → Rat → Rat → Rat → Except PyErr (CellOut σ P B C)) : List RunRect → σ → Except PyErr (List (RunLeft P B C))
  | [], _ => .ok []
  | (x, y, w, h) :: l, c => match exec c x y w h with
    | .error e => .error e
    | .ok o =>
      if o.finished then .ok [⟨o.parts, o.lines, o.fills, o.height, true⟩]
      else match drawings exec l o.next with
        | .error e => .error e
        | .ok ds => .ok (⟨o.parts, o.lines, o.fills, o.height, false⟩ :: ds)

/-- the same for a table -/
def tableDrawings [DecidableEq B] (T : TConf σ P B C) : List RunRect → TS σ P B C → Except PyErr (List (RunLeft P B C))
  | [], _ => .ok []
  | (x, y, w, h) :: l, s => match s.run T x y w h with
    | .error e => .error e
    | .ok s =>
      if s.finished then .ok [⟨s.parts, s.lines, s.fills, s.currentHeight, true⟩]
      else match tableDrawings T l s with
        | .error e => .error e
        | .ok ds => .ok (⟨s.parts, s.lines, s.fills, s.currentHeight, false⟩ :: ds)

/-- the same for a content box -/
def boxDrawings (exec : σ → Rat → Rat → Rat → Rat → Except PyErr (CellOut σ P B C)) (fuel : Nat) :
    List RunRect → CContent σ P B C → CRun (List (RunLeft (CPart P) B C))
  | [], _ => .ok []
  | (x, y, w, h) :: l, s => match s.run exec fuel x y w h with
    | .error e => .error e
    | .ok s =>
      if s.finished then .ok [⟨s.out.parts, s.out.lines, s.out.fills, s.currentHeight, true⟩]
      else match boxDrawings exec fuel l s with
        | .error e => .error e
        | .ok ds => .ok (⟨s.out.parts, s.out.lines, s.out.fills, s.currentHeight, false⟩ :: ds)

end Spec

end Verif
