import Verif.Spec.Nest
import Verif.Spec.InBox
/-! Tables and content boxes inside each other that show nothing outside of their rectangle. -/
namespace Verif.Spec

variable {Λ Q σ B C : Type}

/-- the area of a part of a paragraph or image, or of an image of a box -/
def tagArea (area : Q → Area) : TagPart Q → Area := cArea fun p => area p.2

/-- a table that has one of these widths: its cells do not overlap and stay in it; columns, borders and margins are not negative; its contents have
a width that is fine for them -/
structure TableIn (fine : σ → Rat → Prop) (D : TabData σ B C) (Ws : List Rat) : Prop where
  rects : RectsOk D.content D.cols
  flag : FlagOk D.content
  border : ∀ i j v, 0 ≤ (D.border i j v).width
  cols : 0 < D.cols
  widths : ∃ given, tableWidths D.cols given = .ok D.widths
  pos : ∀ v ∈ D.widths, 0 ≤ v
  style : MarginsOk D.style
  cells : ∀ i j c, cellAt D.content i j = some c → MarginsOk c.style
  wide : ∀ W ∈ Ws, 0 ≤ W
  blank : ∀ W ∈ Ws, ∀ i j : Nat, fine D.blank (innerWidth D W i j 0 D.style)
  fits : ∀ i j c x, cellAt D.content i j = some c → c.content = some x → ∀ W ∈ Ws, ∀ i' : Nat, fine x (innerWidth D W i' j c.cols c.style)

/-- an element of a box that has one of these widths, and at least width `m` -/
def FlatElIn (fine : σ → Rat → Prop) (m : Rat) (Ws : List Rat) : CEl σ → Prop
  | .leaf c st => StyleTidy st ∧ ∀ W ∈ Ws, fine c (W - st.left - st.right)
  | .image i => ImgIn m i
  | _ => False

/-- a box of one column that has one of these widths: gap and margins are not negative, and images have room between theirs -/
def BoxIn (fine : σ → Rat → Prop) (gap : Option Rat) (els : List (CEl σ)) (Ws : List Rat) : Prop :=
  (∀ g, gap = some g → 0 ≤ g) ∧ ∃ m, 0 ≤ m ∧ (∀ W ∈ Ws, m ≤ W) ∧ ∀ e ∈ els, FlatElIn fine m Ws e

/-- things up to `n` deep that have width `W` now, and had other widths in the rectangles before -/
def nestIn : (n : Nat) → Nest Λ B C n → Rat → Prop
  | 0, _, _ => False
  | _ + 1, .leaf _ _, _ => True
  | n + 1, .table D rects, W => TableIn (nestIn n) D (W :: rects.map (·.2.2.1))
  | n + 1, .box gap els rects, W => BoxIn (nestIn n) gap els (W :: rects.map (·.2.2.1))

/-- run in these rectangles, one after the other, it shows nothing outside of each -/
def StepsIn {P : Type} (area : P → Area) (exec : σ → Rat → Rat → Rat → Rat → Except PyErr (CellOut σ P B C)) : σ → List (Rat × Rat × Rat × Rat) → Prop
  | _, [] => True
  | c, (x, y, w, h) :: l => ∀ o, exec c x y w h = .ok o →
      (∀ p ∈ o.parts, (area p).Seen → (area p).Within ⟨x, x + w, y, y - h⟩) ∧ StepsIn area exec o.next l

end Verif.Spec
