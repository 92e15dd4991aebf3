import Verif.Spec.PageTree
/-!
# Name trees (ISO 32000-1, 7.9.6)

Keys are ordered by their character codes. A node has either `Names`, a list of keys and values, or
`Kids`; every node but the root has `Limits`, its least and greatest key. A reader descends into the kid
whose limits contain the key.
-/
namespace Verif.Spec

/-- lexicographic order by character code -/
def strLe : Str → Str → Bool
  | [], _ => true
  | _ :: _, [] => false
  | a :: as, b :: bs => if a.toNat = b.toNat then strLe as bs else a.toNat < b.toNat

/-- the value after the key in a list of keys and values -/
def pairLookup (key : Str) : List Obj → Option Obj
  | .str k :: v :: l => if k = key then some v else pairLookup key l
  | _ => none

/-- do the limits of the kid contain the key? -/
def kidHas (tbl : Table) (key : Str) : Obj → Bool
  | .ref k => match tbl k.toNat with
    | some d => match dget (.str c!"Limits") d with
      | some (.seq [.str lo, .str hi]) => strLe lo key && strLe key hi
      | _ => false
    | none => false
  | _ => false

/-- the lookup of a reader that follows at most `n` levels -/
def nameLookup (tbl : Table) : Nat → Nat → Str → Option Obj
  | 0, _, _ => none
  | n + 1, id, key => match tbl id with
    | none => none
    | some d => match dget (.str c!"Names") d with
      | some (.seq l) => pairLookup key l
      | _ => match dget (.str c!"Kids") d with
        | some (.seq kids) => match kids.find? (kidHas tbl key) with
          | some (.ref k) => nameLookup tbl n k.toNat key
          | _ => none
        | _ => none

/-- the catalog entry where readers start -/
def destsRoot (tbl : Table) (root : Nat) : Option Obj :=
  match tbl root with
  | some d => match dget (.str c!"Names") d with
    | some (.dict e) => dget (.str c!"Dests") e
    | _ => none
  | none => none

end Verif.Spec
