import Verif.Model.Nest
import Verif.Spec.CellText
import Verif.Spec.Contents
/-! # What tables and content boxes inside each other should show

Every paragraph and every image has a number, its tag. What belongs to tag `k` are the words of paragraph `k`, or the image `k`. -/
namespace Verif.Spec

variable {Λ Q σ B C : Type}

/-- what a part shows of tag `k`; `atoms` is what the part of a paragraph or image shows -/
def natoms (atoms : Q → List LAtom) (k : Nat) : TagPart Q → List (CAtom LAtom)
  | .leaf (t, p) => if t = k then (atoms p).map .text else []
  | .image n _ _ _ _ => if n = k then [.image n] else []

/-- paragraphs and images: what they hold, whether they can be shown with some width, whether they have not been run yet, and whether they are an empty
paragraph -/
structure LSpec (Λ : Type) where
  atoms : Λ → List LAtom
  fit : Λ → Rat → Prop
  fresh : Λ → Prop
  void : Λ → Prop

/-- the paragraphs and images of Model/Cells -/
def leafSpec : LSpec Leaf where
  atoms := leafAtoms
  fit := LeafOk
  fresh := FreshLeaf
  void
    | .par cfg rs => rs = [] ∧ 0 < cfg.lineHeight ∧ cfg.content = []
    | .image _ _ => False

/-- contents: what they hold of every tag, their tags, whether they can be shown with some width, whether they have not been run yet, and
whether they are an empty paragraph -/
structure NSpec (σ : Type) where
  total : Nat → σ → List (CAtom LAtom)
  tags : σ → List Nat
  fit : σ → Rat → Prop
  fresh : σ → Prop
  void : σ → Prop

/-- what an element of a box holds of tag `k` -/
def NSpec.elTotal (S : NSpec σ) (k : Nat) : CEl σ → List (CAtom LAtom)
  | .leaf c _ => S.total k c
  | .image i => if i.name = k then [.image i.name] else []
  | _ => []

def NSpec.elTags (S : NSpec σ) : CEl σ → List Nat
  | .leaf c _ => S.tags c
  | .image i => [i.name]
  | _ => []

/-- the width of the content of a cell at row `i`, column `j` of a table of width `W` (table.py:586-627) -/
def innerWidth (D : TabData σ B C) (W : Rat) (i j cols : Nat) (st : CellStyle C) : Rat :=
  cellWidth D.widths W j (cols + 1) -
    ((D.border i j true).width / 2 + st.left + ((D.border i (j + cols + 1) true).width / 2 + st.right))

/-- the tags of a table -/
def NSpec.tableTags (S : NSpec σ) (content : List (List (Option (Cell σ C)))) : List Nat :=
  content.flatMap fun row => row.flatMap fun c => restOf S.tags (c.bind (·.content))

/-- a table without row spans, with margins and borders that are not negative, whose contents can be shown in their boxes when the table has one of these
widths; no two contents have a tag in common -/
structure TableFit (S : NSpec σ) (D : TabData σ B C) (Ws : List Rat) : Prop where
  spans : SpansOk D.content
  rows : ∀ i j c, cellAt D.content i j = some c → c.rows = 0
  border : ∀ i j v, 0 ≤ (D.border i j v).width
  style : 0 ≤ D.style.top ∧ 0 ≤ D.style.bottom
  cells : ∀ i j c, cellAt D.content i j = some c → 0 ≤ c.style.top ∧ 0 ≤ c.style.bottom
  cols : D.cols ≠ 0
  blank : S.void D.blank
  fresh : ∀ i j c x, cellAt D.content i j = some c → c.content = some x → S.fresh x
  fits : ∀ i j c x, cellAt D.content i j = some c → c.content = some x → ∀ W ∈ Ws, ∀ i' : Nat, S.fit x (innerWidth D W i' j c.cols c.style)
  tags : (S.tableTags D.content).Nodup

/-- margins that are not negative; images with sizes, and columns of these widths that have room for them -/
def ElTidy (Ws : List Rat) : CEl σ → Prop
  | .leaf _ st => 0 ≤ st.top ∧ 0 ≤ st.bottom
  | .image i => (0 ≤ i.style.top ∧ 0 ≤ i.style.bottom) ∧ 0 < i.width ∧ 0 < i.height ∧ (∀ m, i.style.minHeight = some m → 0 < m) ∧
      ∀ W ∈ Ws, 0 < W - i.style.left - i.style.right
  | _ => False

/-- paragraphs, tables and images that can be shown in a box of one column that has one of these widths -/
structure BoxFit (S : NSpec σ) (els : List (CEl σ)) (Ws : List Rat) : Prop where
  tidy : ∀ e ∈ els, ElTidy Ws e
  fresh : ∀ c st, .leaf c st ∈ els → S.fresh c
  fits : ∀ c st, .leaf c st ∈ els → ∀ W ∈ Ws, S.fit c (W - st.left - st.right)
  tags : (els.flatMap S.elTags).Nodup

/-- the same for things made of such contents -/
def NSpec.node (S : NSpec σ) (K : LSpec Λ) (B C : Type) : NSpec (Node Λ σ B C) where
  total k
    | .leaf t l => if t = k then (K.atoms l).map .text else []
    | .table D _ => D.content.flatMap fun row => row.flatMap fun c => restOf (S.total k) (c.bind (·.content))
    | .box _ els _ => els.flatMap (S.elTotal k)
  tags
    | .leaf t _ => [t]
    | .table D _ => S.tableTags D.content
    | .box _ els _ => els.flatMap S.elTags
  fit
    | .leaf _ l, W => K.fit l W
    | .table D rects, W => TableFit S D (W :: rects.map (·.2.2.1))
    | .box _ els rects, W => BoxFit S els (W :: rects.map (·.2.2.1))
  fresh
    | .leaf _ l => K.fresh l
    | .table _ rects => rects = []
    | .box _ _ rects => rects = []
  void
    | .leaf _ l => K.void l
    | _ => False

/-- things up to `n` deep -/
def nestSpec (K : LSpec Λ) (B C : Type) : (n : Nat) → NSpec (Nest Λ B C n)
  | 0 => ⟨fun _ c => c.elim, fun c => c.elim, fun c => c.elim, fun c => c.elim, fun c => c.elim⟩
  | n + 1 => (nestSpec K B C n).node K B C

end Verif.Spec
