import Verif.Spec.FileParts
import Verif.Spec.InCells
import Verif.Model.PdfDoc
/-! Pages whose sections are between the margins. -/
namespace Verif.Spec

/-- what is between the margins of a page -/
def sheetArea (k : Sheet) : Area := ⟨k.left, k.w - k.right, k.h - k.top, k.bottom⟩

/-- what an event paints is in an area, up to the rounding of numbers: text has the start of its line, the height at which it is written, between the upper and lower end;
an image, if it has a height, is in it -/
def EventIn (ε : Rat) (R : Area) : Event → Prop
  | .text gs tm mv s => ∃ x y, (Event.text gs tm mv s).origin = some (x, y) ∧ R.bottom - (mv.length + 1) * ε ≤ y ∧ y ≤ R.top + (mv.length + 1) * ε
  | .xobject gs _ => ∃ bw bh bx by' w h x y, gs.cms = [[bw, b!"0", b!"0", bh, bx, by']] ∧ numVal bw = some w ∧ numVal bh = some h ∧ numVal bx = some x ∧ numVal by' = some y ∧
      (ε < h → R.left - ε ≤ x ∧ x + w ≤ R.right + 2 * ε ∧ R.bottom - ε ≤ y ∧ y + h ≤ R.top + 2 * ε)
  | _ => True

/-- a running section whose place is given is in it -/
def RunningIn (ε : Rat) (H : Rat) (b : RunBox) (rs : List Painted) : Prop :=
  ∀ x y w h, b.x = some x → b.y = some y → b.width = some w → b.height = some h → ∀ r ∈ rs, ∀ e ∈ r.evs, EventIn ε ⟨x, x + w, H - y, H - y - h⟩ e

/-- the section is between the margins of the page, and the running sections are where they are planned -/
def PageIn (ε : Rat) (p : BookPage) (g : List (List Painted) × List Painted) : Prop :=
  (∀ r ∈ g.2, ∀ e ∈ r.evs, EventIn ε (sheetArea p.plan.sheet) e) ∧ List.Forall₂ (RunningIn ε p.plan.sheet.h) p.plan.boxes g.1

end Verif.Spec
