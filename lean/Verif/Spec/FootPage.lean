import Verif.Spec.Footnotes
import Verif.Model.FootPage
import Verif.Spec.InBox
import Verif.Spec.Moved
/-! Pages with footnotes: where the section, the rule and the list are. -/
namespace Verif.Spec

variable {σ P B C κ : Type}

/-- a footnote: a paragraph or table with margins that are not negative, or an image that is not to flow -/
def NoteEl (m : Rat) : CEl σ → Prop
  | .leaf _ st => StyleTidy st
  | .image i => ImgIn m i ∧ i.style.place = .normal
  | _ => False

/-- the lists of footnotes have room on a page of their own -/
def ListsFit (exec : κ → σ → Rat → Rat → Rat → Rat → Except PyErr (CellOut σ P B C)) (notes : κ → List (CPart P) → Except PyErr (Option (List (CEl σ)) × κ)) (fuel : Nat) (x y w h : Rat) : Prop :=
  ∀ ctx ps l ctx', notes ctx ps = .ok (some l, ctx') → ∀ n : CContent σ P B C, (CContent.new 1 none l).run (exec ctx') fuel x y w h = .ok n → n.finished = true

/-- all that is to be seen of the parts is within the area -/
def AllWithin (area : P → Area) (ps : List (CPart P)) (a : Area) : Prop := ∀ p ∈ ps, (cArea area p).Seen → (cArea area p).Within a

/-- a page: the section, 5 below it the rule, and 5 below that the list -/
structure FootPageIn (area : P → Area) (r : RunRect) (p : FootPage P B C) : Prop where
  /-- without footnotes the section has the whole rectangle -/
  alone : p.list = none → AllWithin area p.out.parts ⟨r.1, r.1 + r.2.2.1, r.2.1, r.2.1 - r.2.2.2⟩
  rule : ∀ L, p.list = some L → L.ruleLeft = r.1 ∧ L.ruleRight = r.1 + 150 ∧ r.2.1 - r.2.2.2 + 5 ≤ L.ruleY ∧ L.ruleY < r.2.1 - 25
  above : ∀ L, p.list = some L → AllWithin area p.out.parts ⟨r.1, r.1 + r.2.2.1, r.2.1, L.ruleY + 5⟩
  below : ∀ L, p.list = some L → AllWithin area L.out.parts ⟨r.1, r.1 + r.2.2.1, L.ruleY - 5, L.ruleY - 5 - L.height⟩ ∧ 0 ≤ L.height ∧ L.height ≤ max 0 r.2.2.2

/-- the rectangle that is left for the section on a page: as the page, but shorter; with a list it ends 5 above the rule -/
def ShorterPage (q : RunRect × FootPage P B C) (r : RunRect) : Prop :=
  r.1 = q.1.1 ∧ r.2.1 = q.1.2.1 ∧ r.2.2.1 = q.1.2.2.1 ∧ (r.2.2.2 = q.1.2.2.2 ∨ 20 < r.2.2.2) ∧ ∀ L, q.2.list = some L → r.2.1 - r.2.2.2 = L.ruleY + 5

/-- as `boxDrawings`, with a context for each rectangle -/
def ctxDrawings (exec : κ → σ → Rat → Rat → Rat → Rat → Except PyErr (CellOut σ P B C)) (fuel : Nat) :
    List (κ × RunRect) → CContent σ P B C → CRun (List (RunLeft (CPart P) B C))
  | [], _ => .ok []
  | (ctx, x, y, w, h) :: l, s => match s.run (exec ctx) fuel x y w h with
    | .error e => .error e
    | .ok s =>
      if s.finished then .ok [⟨s.out.parts, s.out.lines, s.out.fills, s.currentHeight, true⟩]
      else match ctxDrawings exec fuel l s with
        | .error e => .error e
        | .ok ds => .ok (⟨s.out.parts, s.out.lines, s.out.fills, s.currentHeight, false⟩ :: ds)

/-- the ids of the parts of a page -/
def boxPartIds (ids : P → NPart) : CPart P → NPart
  | .leaf q => ids q
  | .image .. => .image

/-- the notes of the marks, each with its number -/
def numbered (el : Str × Nat → CEl σ) (marks : List Nat) : List (CEl σ) := marks.zipIdx.map fun q => el (natStr (q.2 + 1) ++ c!" ", q.1)

/-- in a lower rectangle, and with other numbers, a paragraph or table shows the first of its marks; if it is finished there, it is also finished in the higher rectangle, with the same
height and marks -/
def LeavesShrink (exec : κ → σ → Rat → Rat → Rat → Rat → Except PyErr (CellOut σ P B C)) (ids : P → NPart) : Prop :=
  ∀ c c' s x y w h h' o o', h' ≤ h → exec c s x y w h = .ok o → exec c' s x y w h' = .ok o' →
    marksOn (o'.parts.map ids) <+: marksOn (o.parts.map ids) ∧
    (o'.finished = true → o.finished = true ∧ o'.height = o.height ∧ marksOn (o'.parts.map ids) = marksOn (o.parts.map ids))

end Verif.Spec
