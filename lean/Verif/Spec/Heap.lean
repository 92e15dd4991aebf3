import Verif.Py
/-!
# Python values in a heap: containers with identity, mutation and reachability

Independent of the model. An address is an index in the heap.
-/
namespace Verif.Spec.Heap

/-- the containers `copy` distinguishes; `tuple` stands for every other object holding references -/
inductive Kind
  | list | dict | tuple
  deriving DecidableEq, Repr

inductive Val
  | atom (a : Str)      -- an immutable value
  | ref (addr : Nat)
  deriving DecidableEq, Repr

/-- a container; `keys` are the keys of a dict -/
structure Cell where
  kind : Kind
  keys : List Str
  vals : List Val
  deriving DecidableEq, Repr

abbrev Heap := List Cell

/-- what a value looks like, without identities -/
inductive Tree
  | atom (a : Str)
  | node (k : Kind) (keys : List Str) (l : List Tree)

mutual
/-- `v` looks like `t` in heap `h`: two values with the same tree are equal in Python's sense -/
inductive Looks (h : Heap) : Val → Tree → Prop
  | atom (a : Str) : Looks h (.atom a) (.atom a)
  | node {a : Nat} {c : Cell} {ts : List Tree} : h[a]? = some c → LooksAll h c.vals ts →
      Looks h (.ref a) (.node c.kind c.keys ts)
inductive LooksAll (h : Heap) : List Val → List Tree → Prop
  | nil : LooksAll h [] []
  | cons {v t vs ts} : Looks h v t → LooksAll h vs ts → LooksAll h (v :: vs) (t :: ts)
end

/-- only lists and dicts inside -/
inductive Plain : Tree → Prop
  | atom (a : Str) : Plain (.atom a)
  | node {k keys ts} : k ≠ .tuple → (∀ t ∈ ts, Plain t) → Plain (.node k keys ts)

/-- the containers that can be reached from a value -/
inductive Reach (h : Heap) : Val → Nat → Prop
  | here (a : Nat) : Reach h (.ref a) a
  | there {a b : Nat} {c : Cell} {v : Val} : h[a]? = some c → v ∈ c.vals → Reach h v b → Reach h (.ref a) b

/-- Everything a program can do to the heap when it can reach only the containers in `A`: overwrite one
of them, or allocate a new one, always with references it can reach. -/
inductive Edits : Heap → (Nat → Prop) → Heap → Prop
  | done (h : Heap) (A) : Edits h A h
  | write {h A h' a} {c : Cell} : A a → (∀ r, .ref r ∈ c.vals → A r) → Edits (h.set a c) A h' → Edits h A h'
  | alloc {h A h'} {c : Cell} : (∀ r, .ref r ∈ c.vals → A r) →
      Edits (h ++ [c]) (fun x => A x ∨ x = h.length) h' → Edits h A h'

end Verif.Spec.Heap
