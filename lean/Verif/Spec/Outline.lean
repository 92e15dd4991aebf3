import Verif.Spec.PageTree
/-!
# Outlines (ISO 32000-1, 12.3.3)

An outline forest, and what it means that the objects of a table represent it.
-/
namespace Verif.Spec

inductive Outline
  | node (text label : Str) (children : List Outline)

mutual
/-- how many items are visible when the first `level` levels are open -/
def visibleItem (level : Int) : Outline → Nat
  | .node _ _ ch => 1 + if level > 1 then visible (level - 1) ch else 0
def visible (level : Int) : List Outline → Nat
  | [] => 0
  | o :: l => visibleItem level o + visible level l
end

mutual
/-- the object `id` represents the item, between the siblings `prev` and `next` under `parent`; an item
above the configured level is open and counts its visible descendants, the others are closed (negative) -/
inductive OutItem (tbl : Table) : Int → Nat → Option Nat → Option Nat → Nat → Outline → Prop
  | mk {level parent prev next id d text label ch} : tbl id = some d →
      dget (.str c!"Title") d = some (.str text) →
      dget (.str c!"Dest") d = some (.str label) →
      dget (.str c!"Parent") d = some (.ref (parent : Nat)) →
      dget (.str c!"Prev") d = prev.map (fun p : Nat => .ref p) →
      dget (.str c!"Next") d = next.map (fun p : Nat => .ref p) →
      OutKids tbl level id d ch →
      OutItem tbl level parent prev next id (.node text label ch)
inductive OutKids (tbl : Table) : Int → Nat → List (Key × Obj) → List Outline → Prop
  | leaf {level id d} : dget (.str c!"First") d = none → dget (.str c!"Last") d = none →
      dget (.str c!"Count") d = none → OutKids tbl level id d []
  | inner {level id d first last l} {n : Int} : dget (.str c!"First") d = some (.ref (first : Nat)) →
      dget (.str c!"Last") d = some (.ref (last : Nat)) →
      dget (.str c!"Count") d = some (.int n) →
      (level > 1 → n = visible (level - 1) l) → (level ≤ 1 → n < 0) →
      OutSibs tbl (level - 1) id none first last l → OutKids tbl level id d l
/-- the items from `first` to `last` represent the (non empty) list -/
inductive OutSibs (tbl : Table) : Int → Nat → Option Nat → Nat → Nat → List Outline → Prop
  | one {level parent prev id o} : OutItem tbl level parent prev none id o → OutSibs tbl level parent prev id id [o]
  | cons {level parent prev id next last o o' l} : OutItem tbl level parent prev (some next) id o →
      OutSibs tbl level parent (some id) next last (o' :: l) → OutSibs tbl level parent prev id last (o :: o' :: l)
end

mutual
/-- the items in document order with their levels -/
def preItem (k : Nat) : Outline → List (Nat × Str × Str)
  | .node t l ch => (k, t, l) :: preorder (k + 1) ch
def preorder (k : Nat) : List Outline → List (Nat × Str × Str)
  | [] => []
  | o :: os => preItem k o ++ preorder k os
end

/-- levels below 1 count as 1 -/
def outlineLevel (level : Int) : Nat := if level ≤ 1 then 1 else level.toNat

/-- every item is at most one level below the item before it, the first one is at level 1 -/
def noSkip : Nat → List (Int × Str × Str) → Prop
  | _, [] => True
  | prev, (level, _) :: l => outlineLevel level ≤ prev + 1 ∧ noSkip (outlineLevel level) l

end Verif.Spec
