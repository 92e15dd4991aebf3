import Verif.Spec.TableLines
/-! The areas of the parts of a table, and of its cells. -/
namespace Verif.Spec

structure Area where
  left : Rat
  right : Rat
  top : Rat
  bottom : Rat

/-- there is something to be seen -/
def Area.Seen (a : Area) : Prop := a.bottom < a.top

/-- two areas have at most an edge in common -/
def Area.Apart (a b : Area) : Prop := a.right ≤ b.left ∨ b.right ≤ a.left ∨ b.top ≤ a.bottom ∨ a.top ≤ b.bottom

def Area.Within (a b : Area) : Prop := b.left ≤ a.left ∧ a.right ≤ b.right ∧ a.top ≤ b.top ∧ b.bottom ≤ a.bottom

/-- contents keep to the rectangle they get: they are not higher, and their parts are in what they take of it -/
def KeepsArea {σ P B C : Type} (area : P → Area) (exec : σ → Rat → Rat → Rat → Rat → Except PyErr (CellOut σ P B C)) : Prop :=
  ∀ c x y w h o, exec c x y w h = .ok o → (0 < o.height → o.height ≤ h) ∧ ∀ p ∈ o.parts, (area p).Within ⟨x, x + w, y, y - o.height⟩

variable {σ P B C : Type}

/-- margins that are not negative -/
def MarginsOk (st : CellStyle C) : Prop := 0 ≤ st.left ∧ 0 ≤ st.right ∧ 0 ≤ st.top ∧ 0 ≤ st.bottom

/-- the inside of a cell, without its borders and margins, in a table whose columns begin at `X` and whose `n` rows begin at `Y`. If the cell goes on below the last
row, it ends at `floor`, where the room of the table ends. -/
def Tile.inner (T : TConf σ P B C) (late : Option (List (Nat × Delayed σ C))) (base : Nat) (X Y : Nat → Rat) (floor : Rat) (n : Nat) (e : Tile C) : Area :=
  ⟨X e.col + padLeft T late base e, X (e.col + e.cols + 1) - padRight T late base e, Y e.row - padTop T late base e,
    (if e.row + e.rows < n then max floor (Y (e.row + e.rows + 1)) else floor) + padBottom T late base e⟩

end Verif.Spec
