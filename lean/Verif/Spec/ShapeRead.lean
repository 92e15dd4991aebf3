import Verif.Spec.Shapes
import Verif.Spec.InPage
/-! Lines and fills of tables as they are read from a page. -/
namespace Verif.Spec

/-- a number that is read is `v`, up to rounding -/
def NumNear (ε : Rat) (b : Bytes) (v : Rat) : Prop := ∃ v', numVal b = some v' ∧ |v' - v| ≤ ε

/-- a colour with components -/
def ColorRead (ε : Rat) (c : PDFColor Rat) (bs : List Bytes) : Prop := ∃ l, c.color = some l ∧ List.Forall₂ (NumNear ε) bs l

/-- the line style: solid lines have no pattern; dashes are three widths long and one and a half apart; dots are round and two widths apart -/
def StyleRead (ε : Rat) (w : Rat) (style : Str) (gs : GS) : Prop :=
  (style = c!"solid" ∧ gs.cap = b!"0" ∧ gs.dash = ([], b!"0")) ∨
  (style = c!"dashed" ∧ gs.cap = b!"0" ∧ ∃ on off, gs.dash = ([on, off], b!"0") ∧ NumNear ε on (3 * w) ∧ NumNear ε off (3 / 2 * w)) ∨
  (style = c!"dotted" ∧ gs.cap = b!"1" ∧ ∃ off start, gs.dash = ([b!"0", off], start) ∧ NumNear ε off (2 * w))

/-- a fill or line that is painted looks as it may, and is where it may be: between left and right, and not above the top; lines, with their thickness, up to `out`.
Numbers may be rounded by `ε`. -/
def ShapeIn (ε : Rat) (p : Palette (PDFColor Rat × Str) (PDFColor Rat)) (R : Area) : Event → Prop
  | .fill gs path => gs.cms = [] ∧ (∃ c, p.color c ∧ ColorRead ε c gs.fill) ∧
      ∃ bx by' bw bh x y w h, path = [.rect bx by' bw bh] ∧ numVal bx = some x ∧ numVal by' = some y ∧ numVal bw = some w ∧ numVal bh = some h ∧
        -ε ≤ w ∧ -ε ≤ h ∧ R.left - ε ≤ x ∧ x + w ≤ R.right + 2 * ε ∧ y + h ≤ R.top + 2 * ε
  | .stroke gs path => gs.cms = [] ∧ ∃ c w style, p.border ⟨w, (c, style)⟩ ∧ ColorRead ε c gs.stroke ∧ NumNear ε gs.width w ∧ StyleRead ε w style gs ∧
      ∃ bx1 by1 bx2 by2 x1 y1 x2 y2, path = [.move bx1 by1, .line bx2 by2] ∧ numVal bx1 = some x1 ∧ numVal by1 = some y1 ∧ numVal bx2 = some x2 ∧ numVal by2 = some y2 ∧
        ((y1 = y2 ∧ R.left - p.out - ε ≤ x1 ∧ x2 ≤ R.right + p.out + ε ∧ y1 + w / 2 ≤ R.top + p.out + ε ∧ x1 ≤ x2 + 2 * ε) ∨
          (x1 = x2 ∧ R.left - p.out - ε ≤ x1 - w / 2 ∧ x1 + w / 2 ≤ R.right + p.out + ε ∧ y1 ≤ R.top + p.out + ε ∧ y2 ≤ y1 + 2 * ε))
  | _ => True

/-- the fills and lines of the tables among some pieces (paragraphs have their own) -/
def ShapesIn (ε : Rat) (p : Palette (PDFColor Rat × Str) (PDFColor Rat)) (R : Area) (rs : List Painted) : Prop :=
  ∀ r ∈ rs, r.mark = none → ∀ e ∈ r.evs, ShapeIn ε p R e

/-- a running section whose place is given -/
def RunningShapes (ε : Rat) (p : Palette (PDFColor Rat × Str) (PDFColor Rat)) (H : Rat) (b : RunBox) (rs : List Painted) : Prop :=
  ∀ x y w h, b.x = some x → b.y = some y → b.width = some w → b.height = some h → ShapesIn ε p ⟨x, x + w, H - y, H - y - h⟩ rs

/-- the section of a page, and its running sections -/
def PageShapes (ε : Rat) (p : Palette (PDFColor Rat × Str) (PDFColor Rat)) (q : BookPage) (g : List (List Painted) × List Painted) : Prop :=
  ShapesIn ε p (sheetArea q.plan.sheet) g.2 ∧ List.Forall₂ (RunningShapes ε p q.plan.sheet.h) q.plan.boxes g.1

/-- colours with one or three components: those of borders are for lines, those of fills for fills; and the line styles are known -/
structure PaletteOk (p : Palette (PDFColor Rat × Str) (PDFColor Rat)) : Prop where
  border : ∀ w c style, p.border ⟨w, (c, style)⟩ → (∃ l, c.color = some l ∧ (l.length = 1 ∨ l.length = 3)) ∧ c.stroke = true ∧ (style = c!"dashed" ∨ style = c!"dotted" ∨ style = c!"solid")
  color : ∀ c, p.color c → (∃ l, c.color = some l ∧ (l.length = 1 ∨ l.length = 3)) ∧ c.stroke = false

end Verif.Spec
