import Verif.Spec.Heap
/-!
# Model of `copy` (utils.py:363-379)

On a heap, so that sharing is visible. `none` means that the recursion did not finish in `n` nested
calls (a cyclic value never does). New containers are allocated after their elements, Python allocates
them before: the addresses differ, nothing else.
-/
namespace Verif
open Spec.Heap

/-- the comprehensions of utils.py:375 and 377: the elements are copied in order -/
def copyAll (f : Heap → Val → Option (Heap × Val)) : Heap → List Val → Option (Heap × List Val)
  | h, [] => some (h, [])
  | h, v :: vs => match f h v with
    | none => none
    | some (h1, v1) => match copyAll f h1 vs with
      | none => none
      | some (h2, vs2) => some (h2, v1 :: vs2)

/-- utils.py:374-379 -/
def copyVal : Nat → Heap → Val → Option (Heap × Val)
  | 0, _, _ => none
  | _ + 1, h, .atom a => some (h, .atom a)
  | n + 1, h, .ref a => match h[a]? with
    | none => none
    | some c => match c.kind with
      | .tuple => some (h, .ref a)
      | _ => match copyAll (copyVal n) h c.vals with
        | none => none
        | some (h1, vs) => some (h1 ++ [⟨c.kind, c.keys, vs⟩], .ref h1.length)

end Verif
