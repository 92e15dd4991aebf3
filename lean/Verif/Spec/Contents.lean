import Verif.Model.Content
import Verif.Spec.Tables
/-! # What a content box should show

Written without the engine: the elements of a box as lists of atoms (glyphs, images, …), in their order. -/
namespace Verif.Spec

variable {σ P A : Type}

/-- an atom: one of a paragraph or table, or an image -/
inductive CAtom (A : Type) where
  | text (a : A)
  | image (name : Nat)
  deriving DecidableEq

/-- the atoms of an element -/
def elAtoms (rest : σ → List A) : CEl σ → List (CAtom A)
  | .leaf c _ => (rest c).map .text
  | .image i => [.image i.name]
  | _ => []

/-- the atoms of a part -/
def boxAtoms (atoms : P → List A) : CPart P → List (CAtom A)
  | .leaf p => (atoms p).map .text
  | .image n _ _ _ _ => [.image n]

/-- images may be overtaken by the elements after them, unless their place is `normal` -/
def flows : CEl σ → Bool
  | .image i => i.style.place ≠ .normal
  | _ => false

/-- neither a group nor a content box -/
def flat : CEl σ → Bool
  | .leaf _ _ => true
  | .image _ => true
  | _ => false

/-- the atoms of the element at place `i` -/
def atomsAt (rest : σ → List A) (els : List (CEl σ)) (i : Nat) : List (CAtom A) := ((els[i]?).map (elAtoms rest)).getD []

def flowsAt (els : List (CEl σ)) (i : Nat) : Bool := ((els[i]?).map flows).getD false

/-- the atoms that came from element `i` -/
def ofElement (t : List (Nat × CAtom A)) (i : Nat) : List (CAtom A) := (t.filter (·.1 = i)).map Prod.snd

/-- document order, but an image that flows may come after elements that follow it -/
def DocOrder (els : List (CEl σ)) (t : List (Nat × CAtom A)) : Prop := t.Pairwise fun a b => a.1 ≤ b.1 ∨ flowsAt els b.1 = true

/-- when something of an element is shown, everything before it has been shown completely, but for images that flow -/
def BoxSettled (rest : σ → List A) (els : List (CEl σ)) (t : List (Nat × CAtom A)) : Prop :=
  ∀ a ∈ t, ∀ i, i < a.1 → flowsAt els i = false → ofElement t i = atomsAt rest els i

end Verif.Spec
