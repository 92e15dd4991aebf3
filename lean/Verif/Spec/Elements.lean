import Verif.Model.Elements
/-! # What an element is, according to the documentation of content boxes (content.py:60-150) and tables (table.py) -/
namespace Verif.Spec

/-- the keys that say what a dict is; keys that begin with a dot are those of paragraphs -/
def kindKeys : List (Str × ElKind) := [(c!"image", .image), (c!"table", .table), (c!"content", .content), (c!"group", .group)]

/-- keys for what a box has begun, not meant to be given -/
def innerKeys : List Str := [c!"paragraph", c!"table_delayed", c!"delayed"]

/-- the element is of this kind, and no other: a paragraph is a string, a list, a tuple or a dict with a key beginning with a dot -/
inductive IsKind : ElIn → ElKind → Prop
  | str (s : Str) : IsKind (.str s) .text
  | list : IsKind .list .text
  | tuple : IsKind .tuple .text
  | dot {keys : List Str} {k : Str} (h : '.' :: k ∈ keys) (hi : ∀ k ∈ innerKeys, k ∉ keys) : IsKind (.dict keys) .text
  | key {keys : List Str} {k : Str} {kind : ElKind} (hk : (k, kind) ∈ kindKeys) (h : k ∈ keys) (hd : ∀ k, '.' :: k ∉ keys)
      (hone : ∀ p ∈ kindKeys, p.1 ∈ keys → p.1 = k) (hi : ∀ k ∈ innerKeys, k ∉ keys) : IsKind (.dict keys) kind

end Verif.Spec
