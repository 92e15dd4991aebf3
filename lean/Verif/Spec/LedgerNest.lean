import Verif.Spec.Ledger
import Verif.Spec.TableLines
import Verif.Spec.ShapeRead
/-! What tables and content boxes inside each other draw. -/
namespace Verif.Spec

variable {Λ Q σ P B C : Type}

/-- nothing is drawn -/
def Nothing (o : CellOut σ P B C) : Prop := o.parts = [] ∧ o.lines = [] ∧ o.fills = []

/-- what a thing up to `n` deep drew in a rectangle, all of it: a paragraph or image what it left; a box what the runs of its contents drew, all of it, in order; a table its grid
and its fills (`Drawing`, of property C66) and what the runs of its contents drew, all of it. And the contents likewise. -/
def Accounted [DecidableEq B] (leaf : Λ → Rat → Rat → Rat → Rat → Except PyErr (CellOut Λ Q B C)) (fuel : Nat) :
    (n : Nat) → Nest Λ B C n → Rat → Rat → Rat → Rat → CellOut (Nest Λ B C n) (TagPart Q) B C → Prop
  | 0, _, _, _, _, _, _ => False
  | _ + 1, .leaf tag l, x, y, w, h, o => ∃ lo, leaf l x y w h = .ok lo ∧ o.lines = lo.lines ∧ o.fills = lo.fills ∧ o.parts = lo.parts.map fun p => .leaf (tag, p)
  | n + 1, .table D rects, x, y, w, h, o => ∃ ps s, (TS.new 0 0 0 0).runs (D.conf (nestExec leaf fuel n)) rects = .ok (ps, s) ∧
      (((s.finished = true ∨ s.firstRow = true) ∧ Nothing o) ∨
        ∃ last rows cells outs, Drawing (D.conf (nestExec leaf fuel n)) (colX D.widths x w) y (if s.delayed.isEmpty then none else some s.delayed) s.index last (y - o.height) (y - h)
          rows cells outs o.parts o.lines o.fills ∧ ∀ p ∈ outs, ∃ c cx cy cw ch, nestExec leaf fuel n c cx cy cw ch = .ok p.2 ∧ Accounted leaf fuel n c cx cy cw ch p.2)
  | n + 1, .box gap els rects, x, y, w, h, o => ∃ ps s, (CContent.new 1 gap els).runs (nestExec leaf fuel n) fuel rects = .ok (ps, s) ∧
      ((s.finished = true ∧ Nothing o) ∨
        ∃ s' calls, s.run (nestExec leaf fuel n) fuel x y w h = .ok s' ∧ Ledger (nestExec leaf fuel n) True calls s'.out ∧ (∀ k ∈ calls, Accounted leaf fuel n k.thing k.x k.y k.w k.h k.out) ∧
          o.parts = s'.out.parts.map CPart.join ∧ o.lines = s'.out.lines ∧ o.fills = s'.out.fills)

/-- run in these rectangles, one after the other -/
def StepsAccounted [DecidableEq B] (leaf : Λ → Rat → Rat → Rat → Rat → Except PyErr (CellOut Λ Q B C)) (fuel n : Nat) : Nest Λ B C n → List (Rat × Rat × Rat × Rat) → Prop
  | _, [] => True
  | c, (x, y, w, h) :: l => ∀ o, nestExec leaf fuel n c x y w h = .ok o → Accounted leaf fuel n c x y w h o ∧ StepsAccounted leaf fuel n o.next l

/-- a fill of a table as it is read from a page -/
def FillRead (ε : Rat) (f : TFill (PDFColor Rat)) : Event → Prop
  | .fill gs path => gs.cms = [] ∧ ColorRead ε f.color gs.fill ∧
      ∃ bx by' bw bh, path = [.rect bx by' bw bh] ∧ NumNear ε bx f.x ∧ NumNear ε by' f.y ∧ NumNear ε bw f.width ∧ NumNear ε bh f.height
  | _ => False

/-- a line of a table as it is read from a page -/
def LineRead (ε : Rat) (l : BLine LineLook) : Event → Prop
  | .stroke gs path => gs.cms = [] ∧ ColorRead ε l.look.1 gs.stroke ∧ NumNear ε gs.width l.width ∧ StyleRead ε l.width l.look.2 gs ∧
      ∃ bx1 by1 bx2 by2 y2, path = [.move bx1 by1, .line bx2 by2] ∧ l.y2 = some y2 ∧ NumNear ε bx1 l.x1 ∧ NumNear ε by1 l.y1 ∧ NumNear ε bx2 l.x2 ∧ NumNear ε by2 y2
  | _ => False

/-- what the first of these pieces paints: all fills and then all lines that the contents of a box of a document drew in the rectangle `R` -/
def PaintsAll (T : TextEnv) (ε : Rat) (fuel : Nat) (b : DocBox) (R : Area) (rs : List Painted) : Prop :=
  ∃ rects ps c s' calls r fs ls, (CContent.new 1 b.gap b.els).runs (docNestExec T fuel b.depth) fuel rects = .ok (ps, c) ∧
    c.run (docNestExec T fuel b.depth) fuel R.left R.top (R.right - R.left) (R.top - R.bottom) = .ok s' ∧
    Ledger (docNestExec T fuel b.depth) True calls s'.out ∧ (∀ k ∈ calls, Accounted (docExec T) fuel b.depth k.thing k.x k.y k.w k.h k.out) ∧
    rs.head? = some r ∧ r.evs = fs ++ ls ∧ List.Forall₂ (FillRead ε) (calls.flatMap (·.out.fills)) fs ∧ List.Forall₂ (LineRead ε) (calls.flatMap (·.out.lines)) ls

end Verif.Spec
