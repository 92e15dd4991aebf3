import Verif.Model.Trees
import Verif.Spec.NameTree
/-!
# Model of `_build_dests_tree` and `_build_dests` (pdf.py:942-1000)
-/
namespace Verif

def kLimits : Key := .str c!"Limits"
def kNames : Key := .str c!"Names"
def kDests : Key := .str c!"Dests"

/-- one entry of the loop: on the first level `lo = hi = key` and `body = [key, val]`, on the others
`(lo, hi) = val` are the limits and `body = [key]` the id of the kid (pdf.py:964-965, 969, 973-977, 980) -/
structure NameItem where
  lo : Str
  hi : Str
  body : List Obj

/-- variables of the loop: `obj`, `count`, `new_keys` with `new_vals` -/
structure NameLoop where
  base : Base
  cur : Nat
  count : Nat
  out : List (Nat × Str × Str)

/-- `obj['Limits']` -/
def limitsAt (b : Base) (id : Nat) : Str × Str :=
  match b.dictAt id with
  | some d => match dget kLimits d with
    | some (.seq [.str lo, .str hi]) => (lo, hi)
    | _ => ([], [])
  | none => ([], [])

/-- `obj['Limits'][1] = hi` -/
def setHi (hi : Str) (d : List (Key × Obj)) : List (Key × Obj) :=
  match dget kLimits d with
  | some (.seq [lo, _]) => dset kLimits (.seq [lo, .str hi]) d
  | _ => d

/-- pdf.py:966-971: a new node for every seventh entry; `field` is `Names` on the first level, `Kids`
on the others -/
def nameOpen (field : Key) (i : Nat) (s : NameLoop) (it : NameItem) : NameLoop :=
  if i % 7 = 0 then
    let r := s.base.addDict []
    let b := r.2.modify r.1 (dset kLimits (.seq [.str it.lo, .other]))
    { s with base := b.modify r.1 (dset field (.seq [])), cur := r.1, count := s.count + 1 }
  else s

/-- pdf.py:973-977 -/
def nameAppend (field : Key) (s : NameLoop) (it : NameItem) : NameLoop :=
  { s with base := s.base.modify s.cur (fun d => it.body.foldl (fun d v => dictAppend field v d) d) }

/-- pdf.py:979-982 -/
def nameClose (len i : Nat) (s : NameLoop) (it : NameItem) : NameLoop :=
  if (i + 1) % 7 = 0 ∨ i + 1 = len then
    let b := s.base.modify s.cur (setHi it.hi)
    { s with base := b, out := s.out ++ [(s.cur, limitsAt b s.cur)] }
  else s

/-- the loop of pdf.py:963-984 -/
def nameLoop (field : Key) (len : Nat) : Nat → NameLoop → List NameItem → NameLoop
  | _, s, [] => s
  | i, s, it :: l =>
    nameLoop field len (i + 1) (nameClose len i (nameAppend field (nameOpen field i s it) it) it) l

/-- pdf.py:988-989 -/
def setDests (id : Nat) (d : List (Key × Obj)) : List (Key × Obj) :=
  match dget kNames d with
  | some (.dict e) => dset kNames (.dict (dset kDests (.ref id) e)) d
  | none => dset kNames (.dict [(kDests, .ref id)]) d
  | _ => d

/-- `_build_dests_tree`, pdf.py:942-991; the fuel bounds the recursion of pdf.py:991 -/
def buildNameTree (root : Nat) : Nat → Key → Base → List NameItem → Except PyErr Base
  | 0, _, _, _ => .error .recursion
  | fuel + 1, field, b, items =>
    let s := nameLoop field items.length 0 ⟨b, 0, 0, []⟩ items
    if s.count = 1 then
      .ok ((s.base.modify s.cur (ddel kLimits)).modify root (setDests s.cur))
    else buildNameTree root fuel kKids s.base (s.out.map fun p => ⟨p.2.1, p.2.2, [.ref p.1]⟩)

/-- `_build_dests`, pdf.py:993-1000 (`dests.sort()` sorts by character codes) -/
def buildDests (root fuel : Nat) (b : Base) (dests : List (Str × Obj)) : Except PyErr Base :=
  let keys := dests.map Prod.fst
  if keys.length = 0 then .ok b
  else
    let keys := keys.mergeSort Spec.strLe
    buildNameTree root fuel kNames b (keys.map fun k => ⟨k, k, [.str k, (dget k dests).getD .other]⟩)

end Verif
