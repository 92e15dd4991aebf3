import Verif.Model.PdfFlow
import Verif.Spec.InNest
/-! The lines and fills of tables: where they may be, and how they may look. -/
namespace Verif.Spec

variable {Λ σ B C : Type}

/-- how lines and fills may look, and how far lines may be outside -/
structure Palette (B C : Type) where
  border : Bd B → Prop
  color : C → Prop
  out : Rat

/-- a line, with its thickness, is between left and right of a rectangle and below its top, up to `out`: it is horizontal or vertical, and looks like a border -/
structure LineFit (p : Palette B C) (R : Area) (l : BLine B) : Prop where
  border : p.border ⟨l.width, l.look⟩
  thick : 0 < l.width ∧ l.width ≤ 2 * p.out
  place : (l.y2 = some l.y1 ∧ R.left - p.out ≤ l.x1 ∧ l.x1 ≤ l.x2 ∧ l.x2 ≤ R.right + p.out ∧ l.y1 + l.width / 2 ≤ R.top + p.out) ∨
    (l.x2 = l.x1 ∧ R.left - p.out ≤ l.x1 - l.width / 2 ∧ l.x1 + l.width / 2 ≤ R.right + p.out ∧ l.y1 ≤ R.top + p.out ∧ ∃ y2, l.y2 = some y2 ∧ y2 ≤ l.y1)

/-- a fill is between left and right of a rectangle and below its top -/
structure FillFit (p : Palette B C) (R : Area) (f : TFill C) : Prop where
  color : p.color f.color
  size : 0 ≤ f.width ∧ 0 ≤ f.height
  left : R.left ≤ f.x
  right : f.x + f.width ≤ R.right
  top : f.y + f.height ≤ R.top

/-- all of the lines and fills -/
def ShapesFit (p : Palette B C) (R : Area) (lines : List (BLine B)) (fills : List (TFill C)) : Prop :=
  (∀ l ∈ lines, LineFit p R l) ∧ ∀ f ∈ fills, FillFit p R f

/-- contents whose lines and fills keep to the rectangle they get -/
def KeepsShapes {P : Type} (p : Palette B C) (exec : σ → Rat → Rat → Rat → Rat → Except PyErr (CellOut σ P B C)) : Prop :=
  ∀ c x y w h o, exec c x y w h = .ok o → ShapesFit p ⟨x, x + w, y, y - h⟩ o.lines o.fills

/-- a table whose borders and fills look as they may -/
structure TableLooks (p : Palette B C) (D : TabData σ B C) : Prop where
  border : ∀ i j v, 0 < (D.border i j v).width → p.border (D.border i j v)
  thick : ∀ i j v, (D.border i j v).width ≤ 2 * p.out
  fills : ∀ i j c, D.fillDef i j = some c → p.color c
  style : ∀ c, D.style.fill = some c → p.color c
  cells : ∀ i j cell c, cellAt D.content i j = some cell → cell.style.fill = some c → p.color c

/-- things up to `n` deep that have width `W` now, and had other widths in the rectangles before, and whose tables look as they may -/
def nestNeat (p : Palette B C) : (n : Nat) → Nest Λ B C n → Rat → Prop
  | 0, _, _ => False
  | _ + 1, .leaf _ _, _ => True
  | n + 1, .table D rects, W => TableIn (nestNeat p n) D (W :: rects.map (·.2.2.1)) ∧ TableLooks p D
  | n + 1, .box gap els rects, W => BoxIn (nestNeat p n) gap els (W :: rects.map (·.2.2.1))

/-- run in these rectangles, one after the other: the lines and fills keep to each -/
def StepsFit {P : Type} (p : Palette B C) (exec : σ → Rat → Rat → Rat → Rat → Except PyErr (CellOut σ P B C)) : σ → List (Rat × Rat × Rat × Rat) → Prop
  | _, [] => True
  | c, (x, y, w, h) :: l => ∀ o, exec c x y w h = .ok o → ShapesFit p ⟨x, x + w, y, y - h⟩ o.lines o.fills ∧ StepsFit p exec o.next l

end Verif.Spec
