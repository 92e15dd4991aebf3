import Verif.Model.TextOut
import Verif.Spec.NumVal
import Verif.Spec.Machine
import Mathlib.Algebra.Order.Ring.Abs
import Mathlib.Algebra.Order.Ring.Rat
/-!
# Where the marks of a text should be

A text is shown in pieces, one after the other on the baseline of their line. Backgrounds, underlines and the rectangles of links and
labels belong to pieces: where the piece is shown, and as wide as it is. -/
namespace Verif.Spec

/-- a piece with something to see -/
def marked (p : TPart) : Bool := p.words.flatten.any fun c => !pyIsSpace c

/-- a piece as shown: the number of its line, the line, the piece, where it begins, its baseline and its width -/
structure Mark where
  j : Nat
  line : TLine
  part : TPart
  x : Rat
  y : Rat
  w : Rat

/-- the pieces of a line, one after the other -/
def lineMarks (j : Nat) (line : TLine) (y : Rat) (width : TPart → Rat) : Rat → List TPart → List Mark
  | _, [] => []
  | x, p :: l => (if marked p then [⟨j, line, p, x, y, width p⟩] else []) ++ lineMarks j line y width (x + width p) l

/-- the pieces of lines that begin at `(x j, y j)` -/
def runMarks (x y : Nat → Rat) (width : Nat → TPart → Rat) : Nat → List TLine → List Mark
  | _, [] => []
  | j, l :: ls => lineMarks j l (y j) (width j) (x j) l.parts ++ runMarks x y width (j + 1) ls

/-- what is drawn for a piece: its background, its underline -/
inductive Deco
  | back (k : Mark)
  | under (k : Mark)

def Mark.decos (k : Mark) : List Deco :=
  (if k.part.look.bg.color.isSome then [.back k] else []) ++ (if k.part.look.underline then [.under k] else [])

/-- a number as written is a value, up to `e` -/
def Near (e v : Rat) (b : Bytes) : Prop := ∃ r, numVal b = some r ∧ |r - v| ≤ e

/-- the baseline of a piece, with its rise -/
def Mark.base (k : Mark) : Rat := k.y + k.part.look.st.rise

def Mark.size (k : Mark) : Rat := k.part.look.st.size

/-- a rectangle (left, bottom, right, top) is around a piece: from a quarter of its size below its baseline, and as high as its size -/
def RectAround (e : Mark → Rat) (k : Mark) (r : IdRect) : Prop :=
  |r.1 - k.x| ≤ e k ∧ |r.2.1 - (k.base - k.size / 4)| ≤ e k ∧ |r.2.2.1 - (k.x + k.w)| ≤ e k ∧ |r.2.2.2 - (k.base + 3 * k.size / 4)| ≤ e k

/-- the pieces that carry an id, as often as they carry it -/
def marksOf (id : Str) (l : List Mark) : List Mark := l.flatMap fun k => List.replicate ((k.part.ids.getD []).count id) k

/-- the strings of a list, each where it is first -/
def firsts (l : List Str) : List Str := l.foldl (fun a i => if i ∈ a then a else a ++ [i]) []

/-- the ids that pieces carry, in order -/
def markIds (l : List Mark) : List Str := l.flatMap fun k => k.part.ids.getD []

example : firsts [c!"a", c!"b", c!"a"] = [c!"a", c!"b"] := by decide

/-- an event paints the background of a piece in its colour, or a line under it in the colour of its text -/
def DecoPainted (comps : PDFColor Rat → List Bytes) (e : Mark → Rat) (gs0 : GS) : Deco → Event → Prop
  | .back k, ev => ∃ gs a b c d, ev = .fill gs [.rect a b c d] ∧ gs.fill = comps k.part.look.bg ∧ gs.cms = gs0.cms ∧
      Near (e k) k.x a ∧ Near (e k) (k.base - k.size / 4) b ∧ Near (e k) k.w c ∧ Near (e k) (6 * k.size / 5) d
  | .under k, ev => ∃ gs a b c, ev = .stroke gs [.move a b, .line c b] ∧ gs.stroke = comps k.part.look.st.color ∧ gs.cms = gs0.cms ∧
      gs.cap = gs0.cap ∧ gs.dash = gs0.dash ∧ Near (e k) (7 * k.size / 100) gs.width ∧
      Near (e k) k.x a ∧ Near (e k) (k.base - 7 * k.size / 100) b ∧ Near (e k) (k.x + k.w) c

end Verif.Spec
