import Verif.Model.Trees
import Verif.Spec.Outline
/-!
# Model of the outlines (pdf.py:632-638, 1002-1056)

An outline dict is an `Outline`: `text`, `label` and `children` (the key `level` is only used where the
item is inserted, a missing `children` is an empty list: both have length 0 at pdf.py:1032-1033).
-/
namespace Verif
open Spec

def kTitle : Key := .str c!"Title"
def kDest : Key := .str c!"Dest"
def kPrev : Key := .str c!"Prev"
def kNext : Key := .str c!"Next"
def kFirst : Key := .str c!"First"
def kLast : Key := .str c!"Last"
def kPageMode : Key := .str c!"PageMode"
def kOutlines : Key := .str c!"Outlines"

/-- pdf.py:1018-1028: the object of an item and its links -/
def outlineObj (b : Base) (parent : Nat) (prev : Option Nat) (text label : Str) : Nat × Base :=
  let r := b.addDict [(kTitle, .str text), (kParent, .ref parent), (kDest, .str label)]
  match prev with
  | some p => (r.1, (r.2.modify r.1 (dset kPrev (.ref p))).modify p (dset kNext (.ref r.1)))
  | none => (r.1, r.2.modify parent (dset kFirst (.ref r.1)))

mutual
/-- one round of the loop: the id, the state and what is added to `count` -/
def outlineItem (level : Int) (parent : Nat) (b : Base) (prev : Option Nat) : Outline → Nat × Base × Nat
  | .node text label ch =>
    let r := outlineObj b parent prev text label
    match ch with
    | [] => (r.1, r.2, 1)
    | c :: cs =>
      let t := outlineLoop (level - 1) r.1 r.2 none 0 (c :: cs)
      let b1 := t.1.modify r.1 (dset kLast (.ref (t.2.2.getD 0)))
      if level > 1 then (r.1, b1.modify r.1 (dset kCount (.int t.2.1)), 1 + t.2.1)
      else (r.1, b1.modify r.1 (dset kCount (.int (-1))), 1)
/-- the loop of pdf.py:1015-1039: state, `count`, last `obj` (which is also `prev`) -/
def outlineLoop (level : Int) (parent : Nat) (b : Base) (prev : Option Nat) (count : Nat) :
    List Outline → Base × Nat × Option Nat
  | [] => (b, count, prev)
  | o :: l =>
    let r := outlineItem level parent b prev o
    outlineLoop level parent r.2.1 (some r.1) (count + r.2.2) l
end

/-- `_build_outlines`, pdf.py:1044-1056, with `_build_outlines_tree` of the roots (pdf.py:1041 sets `Last`) -/
def buildOutlines (root : Nat) (level : Int) (b : Base) (outlines : List Outline) : Base :=
  if outlines.length = 0 then b
  else
    let r := b.addDict [(kType, .bytes b!"/Outlines")]
    let b := (r.2.modify root (dset kPageMode (.bytes b!"/UseOutlines"))).modify root (dset kOutlines (.ref r.1))
    let t := outlineLoop level r.1 b none 0 outlines
    (t.1.modify r.1 (dset kLast (.ref (t.2.2.getD 0)))).modify r.1 (dset kCount (.int t.2.1))

/-! ### Insertion (pdf.py:632-638) -/

/-- append the item `k` levels down the last entries; `IndexError` when there is no last entry -/
def insertDown (item : Outline) : Nat → List Outline → Except PyErr (List Outline)
  | 0, l => .ok (l ++ [item])
  | k + 1, l => match l.getLast? with
    | none => .error .indexError
    | some (.node t lb ch) => match insertDown item k ch with
      | .error e => .error e
      | .ok ch => .ok (l.dropLast ++ [.node t lb ch])

/-- pdf.py:632-638; `range(level - 1)` is empty for levels below 2 -/
def insertOutline (l : List Outline) (level : Int) (text label : Str) : Except PyErr (List Outline) :=
  insertDown (.node text label []) (level - 1).toNat l

/-- outlines added one after the other -/
def insertAll (l : List Outline) : List (Int × Str × Str) → Except PyErr (List Outline)
  | [] => .ok l
  | (level, t, lb) :: rest => match insertOutline l level t lb with
    | .error e => .error e
    | .ok l => insertAll l rest

end Verif
