import Verif.Model.PdfFlow
import Verif.Spec.Tables
/-! # Specification: what tables and content boxes of a document hold

Every paragraph and every image has a number, its tag. `leaf` and `image` say what is looked for in a paragraph or image and in an image of a content box. -/
namespace Verif.Spec

variable {A σ : Type} (leaf : DocLeaf → List A) (image : Nat → List A)

/-- what an element of a box holds of tag `k`; `inner` is what its content holds -/
def elHeld (inner : σ → List A) (k : Nat) : CEl σ → List A
  | .leaf c _ => inner c
  | .image i => if i.name = k then image i.name else []
  | _ => []

/-- what things up to `n` deep hold of tag `k` -/
def nestHeld (k : Nat) : (n : Nat) → DocNest n → List A
  | 0, c => c.elim
  | n + 1, c => match (c : Node DocLeaf (DocNest n) LineLook (PDFColor Rat)) with
    | .leaf t l => if t = k then leaf l else []
    | .table D _ => D.content.flatMap fun row => row.flatMap fun c => restOf (nestHeld k n) (c.bind (·.content))
    | .box _ els _ => els.flatMap (elHeld image (nestHeld k n) k)

/-- what a table holds of tag `k` -/
def gridHeld (g : DocGrid) (k : Nat) : List A :=
  g.data.content.flatMap fun row => row.flatMap fun c => restOf (nestHeld leaf image k g.depth) (c.bind (·.content))

/-- what a content box holds of tag `k` -/
def boxHeld (b : DocBox) (k : Nat) : List A := b.els.flatMap (elHeld image (nestHeld leaf image k b.depth) k)

end Verif.Spec
