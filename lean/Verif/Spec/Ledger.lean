import Verif.Model.Content
/-! What a content box draws is what its contents draw. -/
namespace Verif.Spec

variable {σ P B C : Type}

/-- a run of a paragraph, image, table or box, and what it drew -/
structure Call (σ P B C : Type) where
  thing : σ
  x : Rat
  y : Rat
  w : Rat
  h : Rat
  out : CellOut σ P B C

/-- the parts that are not images of the box itself -/
def leafParts (l : List (CPart P)) : List P := l.filterMap fun | .leaf p => some p | .image .. => none

/-- a box and all boxes inside have one column -/
inductive OneColumn : CEl σ → Prop
  | leaf {c : σ} {st : CStyle} : OneColumn (.leaf c st)
  | image {i : CImg} : OneColumn (.image i)
  | group {l : List (GEl σ)} {t : Nat} {st : CStyle} : OneColumn (.group l t st)
  | child {gap : Option Rat} {els : List (CEl σ)} {st : CStyle} (h : ∀ e ∈ els, OneColumn e) : OneColumn (.child 1 gap els st)

/-- all lines and fills of these runs were drawn, each once, in order, and no others; and no other parts. If `one`, all of their parts were. -/
structure Ledger (exec : σ → Rat → Rat → Rat → Rat → Except PyErr (CellOut σ P B C)) (one : Prop) (calls : List (Call σ P B C)) (out : COut P B C) : Prop where
  ran : ∀ k ∈ calls, exec k.thing k.x k.y k.w k.h = .ok k.out
  lines : out.lines = calls.flatMap (·.out.lines)
  fills : out.fills = calls.flatMap (·.out.fills)
  parts : (leafParts out.parts).Sublist (calls.flatMap (·.out.parts))
  all : one → leafParts out.parts = calls.flatMap (·.out.parts)

end Verif.Spec
