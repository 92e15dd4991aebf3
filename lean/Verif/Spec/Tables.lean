import Verif.Model.TableRun
/-! # What the rows and cells of a table should come to

Written without the engine: positions of the grid, spans, and the content of a cell as a list of atoms (glyphs, images, …). -/
namespace Verif.Spec

variable {σ P B C A : Type}

/-- the cell at row `i`, column `j`, if it is not `None` -/
def cellAt (content : List (List (Option (Cell σ C)))) (i j : Nat) : Option (Cell σ C) := (content[i]?.bind (·[j]?)).join

/-- well-formed spans: the other positions of the rectangle of a cell are `None` -/
def SpansOk (content : List (List (Option (Cell σ C)))) : Prop :=
  ∀ i j c, cellAt content i j = some c → ∀ i' j', i ≤ i' → i' ≤ i + c.rows → j ≤ j' → j' ≤ j + c.cols → (i', j') ≠ (i, j) →
    cellAt content i' j' = none

/-- the atoms of a cell content that may be missing -/
def restOf (rest : σ → List A) : Option σ → List A
  | some c => rest c
  | none => []

/-- the atoms that belong to a position of the grid -/
def cellAtoms (rest : σ → List A) (content : List (List (Option (Cell σ C)))) (i j : Nat) : List A :=
  restOf rest ((cellAt content i j).bind (·.content))

/-- contents that show what they hold: each run shows the next atoms and keeps the others; when it says it is finished
nothing is left, and it shows nothing without height. This is what C24 and C25 are about for paragraphs. -/
structure Honest (exec : σ → Rat → Rat → Rat → Rat → Except PyErr (CellOut σ P B C)) (atoms : P → List A) (rest : σ → List A) : Prop where
  step : ∀ c x y w h o, exec c x y w h = .ok o → o.parts.flatMap atoms ++ rest o.next = rest c
  done : ∀ c x y w h o, exec c x y w h = .ok o → o.finished = true → rest o.next = []
  zero : ∀ c x y w h o, exec c x y w h = .ok o → o.height ≤ 0 → o.parts.flatMap atoms = []

/-- the atoms labelled with a position -/
def labelled (t : List ((Nat × Nat) × A)) (i j : Nat) : List A := (t.filter (·.1 = (i, j))).map Prod.snd

/-- row after row: when something of a row is shown, the rows before it have been shown completely -/
def RowOrder {σ C : Type} (rest : σ → List A) (content : List (List (Option (Cell σ C)))) (t : List ((Nat × Nat) × A)) : Prop :=
  (t.map (·.1.1)).Pairwise (· ≤ ·) ∧ ∀ e ∈ t, ∀ i, i < e.1.1 → ∀ j, labelled t i j = cellAtoms rest content i j

end Verif.Spec
