import Verif.Spec.Nest
import Verif.Spec.DocHeld
/-! # Specification: what comes first in tables and content boxes

Every paragraph and every image has a number, its tag. An element of a content box comes before those after it, unless it is an image that flows, and a row of a
table before the rows after it; the cells of a row are shown side by side and may continue on the next page, so there is no order between them. -/
namespace Verif.Spec

variable {Λ σ B C : Type}

/-- the tags of an element of a box -/
def elTags (tags : σ → List Nat) : CEl σ → List Nat
  | .leaf c _ => tags c
  | .image i => [i.name]
  | _ => []

/-- the tags of things up to `n` deep -/
def nestTags : (n : Nat) → Nest Λ B C n → List Nat
  | 0, c => c.elim
  | n + 1, c => match (c : Node Λ (Nest Λ B C n) B C) with
    | .leaf t _ => [t]
    | .table D _ => D.content.flatMap fun row => row.flatMap fun c => restOf (nestTags n) (c.bind (·.content))
    | .box _ els _ => els.flatMap (elTags (nestTags n))

/-- in a box `k` comes before `k'`: in different elements, or in an element (`inner`) -/
def elsBefore (tags : σ → List Nat) (inner : σ → Prop) (els : List (CEl σ)) (k k' : Nat) : Prop :=
  (∃ (i i' : Nat) (e e' : CEl σ), i < i' ∧ els[i]? = some e ∧ els[i']? = some e' ∧ flows e = false ∧ k ∈ elTags tags e ∧ k' ∈ elTags tags e') ∨
    ∃ c st, .leaf c st ∈ els ∧ inner c

/-- in a table `k` comes before `k'`: in different rows, or in a cell (`inner`) -/
def rowsBefore (tags : σ → List Nat) (inner : σ → Prop) (content : List (List (Option (Cell σ C)))) (k k' : Nat) : Prop :=
  (∃ (i i' j j' : Nat) (c c' : Cell σ C), i < i' ∧ cellAt content i j = some c ∧ cellAt content i' j' = some c' ∧ k ∈ restOf tags c.content ∧ k' ∈ restOf tags c'.content) ∨
    ∃ i j c x, cellAt content i j = some c ∧ c.content = some x ∧ inner x

/-- in a thing up to `n` deep `k` comes before `k'` -/
def nestBefore (k k' : Nat) : (n : Nat) → Nest Λ B C n → Prop
  | 0, c => c.elim
  | n + 1, c => match (c : Node Λ (Nest Λ B C n) B C) with
    | .leaf _ _ => False
    | .table D _ => rowsBefore (nestTags n) (nestBefore k k' n) D.content k k'
    | .box _ els _ => elsBefore (nestTags n) (nestBefore k k' n) els k k'

/-- in a content box of a document `k` comes before `k'` -/
def boxBefore (b : DocBox) (k k' : Nat) : Prop := elsBefore (nestTags b.depth) (nestBefore k k' b.depth) b.els k k'

/-- in a table of a document `k` comes before `k'` -/
def gridBefore (g : DocGrid) (k k' : Nat) : Prop := rowsBefore (nestTags g.depth) (nestBefore k k' g.depth) g.data.content k k'

/-- what has tags is in order: nothing is before something that has to come before it -/
def KeepsOrder {A : Type} (before : Nat → Nat → Prop) (u : List (Nat × A)) : Prop := u.Pairwise fun a b => ¬ before b.1 a.1

end Verif.Spec
