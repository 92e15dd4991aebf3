import Verif.Model.Content
import Verif.Spec.InCells
/-! Content boxes that show nothing outside of their rectangle. -/
namespace Verif.Spec

variable {σ P B C : Type}

/-- contents keep to the rectangle they get: what is to be seen of their parts is in it -/
def KeepsIn (area : P → Area) (exec : σ → Rat → Rat → Rat → Rat → Except PyErr (CellOut σ P B C)) : Prop :=
  ∀ c x y w h o, exec c x y w h = .ok o → ∀ p ∈ o.parts, (area p).Seen → (area p).Within ⟨x, x + w, y, y - h⟩

/-- the area of a part of a content box -/
def cArea (area : P → Area) : CPart P → Area
  | .leaf p => area p
  | .image _ x y w h => ⟨x, x + w, y + h, y⟩

/-- the width of a column -/
def columnWidth (cols : Nat) (gap : Option Rat) (W : Rat) : Rat := (W - gap.getD (max (W / 25) 7) * ((cols : Rat) - 1)) / cols

/-- margins that are not negative -/
def StyleTidy (st : CStyle) : Prop := 0 ≤ st.top ∧ 0 ≤ st.bottom ∧ 0 ≤ st.left ∧ 0 ≤ st.right

/-- an image in columns that have at least width `m`: margins that are not negative and leave room, a size, and a least height that is positive, if any -/
def ImgIn (m : Rat) (i : CImg) : Prop :=
  StyleTidy i.style ∧ i.style.left + i.style.right ≤ m ∧ 0 < i.width ∧ 0 < i.height ∧ ∀ q, i.style.minHeight = some q → 0 < q

/-- an element of a group; images in groups have no least height -/
def GElIn (m : Rat) : GEl σ → Prop
  | .leaf _ st => StyleTidy st
  | .image i => ImgIn m i ∧ i.style.minHeight = none

/-- an element in a column of width `W`: margins that are not negative, boxes whose gaps are not negative, and whose columns have at least the width `m`; `one`: these
boxes have one column -/
inductive ElIn (one : Prop) (m : Rat) : Rat → CEl σ → Prop
  | leaf {W : Rat} {c : σ} {st : CStyle} (h : StyleTidy st) : ElIn one m W (.leaf c st)
  | image {W : Rat} {i : CImg} (h : ImgIn m i) : ElIn one m W (.image i)
  | group {W : Rat} {l : List (GEl σ)} {t : Nat} {st : CStyle} (h : 0 ≤ st.top) (hl : ∀ e ∈ l, GElIn m e) : ElIn one m W (.group l t st)
  | child {W : Rat} {cols : Nat} {gap : Option Rat} {els : List (CEl σ)} {st : CStyle} (h : 0 ≤ st.top ∧ 0 ≤ st.bottom) (hc : 0 < cols) (hg : ∀ g, gap = some g → 0 ≤ g)
    (ho : one → cols = 1) (hw : m ≤ columnWidth cols gap W) (he : ∀ e ∈ els, ElIn one m (columnWidth cols gap W) e) : ElIn one m W (.child cols gap els st)

/-- what is to be seen is between left and right, and below the top of the rectangle; and, if `one`, above its lower end -/
def PartIn (one : Prop) (R a : Area) : Prop := a.Seen → R.left ≤ a.left ∧ a.right ≤ R.right ∧ a.top ≤ R.top ∧ (one → R.bottom ≤ a.bottom)

end Verif.Spec
