import Verif.Spec.InBox
/-! What is shown in a column, one below the other. -/
namespace Verif.Spec

variable {σ P B C : Type}

/-- what one element shows at one time: the parts of a content, or an image -/
def FromOne (exec : σ → Rat → Rat → Rat → Rat → Except PyErr (CellOut σ P B C)) (b : List (CPart P)) : Prop :=
  (∃ c x y w h o, exec c x y w h = .ok o ∧ b = o.parts.map .leaf) ∨ ∃ n x y w h, b = [.image n x y w h]

/-- what is to be seen of `b` is below of what is to be seen of `a` -/
def BlockBelow (area : P → Area) (a b : List (CPart P)) : Prop := ∀ p ∈ a, ∀ q ∈ b, (cArea area p).Seen → (cArea area q).Seen → (cArea area q).top ≤ (cArea area p).bottom

end Verif.Spec
