import Verif.Model.Footnotes
/-! Specification of footnotes. -/
namespace Verif.Spec

/-- the footnote marks with a place on the page, in order -/
def marksOn : List NPart → List Str
  | [] => []
  | .image :: l => marksOn l
  | .paragraph ids :: l => (ids.filter fun p => p.2 ≠ 0 ∧ notePrefix <+: p.1).map Prod.fst ++ marksOn l

/-- the footnotes listed on a page are those of the marks `m`, numbered from 1 -/
def Lists (notes : Option (List (Str × Nat))) (m : List Nat) : Prop :=
  (m = [] → notes = none) ∧ (m ≠ [] → ∃ l, notes = some l ∧ l.length = m.length ∧
    ∀ i n, m[i]? = some n → l[i]? = some (natStr (i + 1) ++ c!" ", n))

mutual

/-- the dicts with a footnote, in the order of the document; a footnote inside a footnote is not one of them -/
def noted : DVal → List (List (Str × DVal))
  | .list l => notedList l
  | .dict d => match dget c!"footnote" d with
    | some _ => [d]
    | none => notedDict d
  | _ => []

/-- in a list -/
def notedList : List DVal → List (List (Str × DVal))
  | [] => []
  | v :: l => noted v ++ notedList l

/-- in the values of a dict -/
def notedDict : List (Str × DVal) → List (List (Str × DVal))
  | [] => []
  | (_, v) :: l => noted v ++ notedDict l

end

/-- the dict `d'` is the dict `d` with footnote `n` made its mark -/
def IsMark (n : Nat) (d d' : List (Str × DVal)) : Prop :=
  dget c!"var" d' = some (.text (noteName n)) ∧ dget c!"style" d' = some (.text c!"$footnote") ∧
  (∃ old, dget c!"ids" d' = some (.list (old ++ [.text (noteName n)])) ∧
    ((dget c!"ids" d = none ∧ old = []) ∨ dget c!"ids" d = some (.list old))) ∧
  ∀ k, k ≠ c!"var" → k ≠ c!"style" → k ≠ c!"ids" → dget k d' = dget k d

/-- `f` is the text `v` of a footnote as a paragraph -/
def IsNote (v f : DVal) : Prop :=
  (∃ d, v = .dict d ∧ f = v) ∨
  (∃ t, f = .dict [(c!".", t)] ∧ (((∃ s, v = .text s) ∧ t = v) ∨ ((∃ l, v = .list l) ∧ t = v) ∨ ∃ s, v = .other s ∧ t = .text s))

/-- the dicts `ds` have become the marks `ds'` with numbers from `k`, and `fs` are their footnotes -/
inductive Marked : Nat → List (List (Str × DVal)) → List (List (Str × DVal)) → List DVal → Prop
  | nil (k : Nat) : Marked k [] [] []
  | cons {k : Nat} {d d' : List (Str × DVal)} {t f : DVal} {ds ds' : List (List (Str × DVal))} {fs : List DVal} :
      IsMark k d d' → dget c!"footnote" d = some t → IsNote t f → Marked (k + 1) ds ds' fs → Marked k (d :: ds) (d' :: ds') (f :: fs)

mutual

/-- the value without what is in the dicts with a footnote -/
def bare : DVal → DVal
  | .list l => .list (bareList l)
  | .dict d => match dget c!"footnote" d with
    | some _ => .dict []
    | none => .dict (bareDict d)
  | v => v

/-- for a list -/
def bareList : List DVal → List DVal
  | [] => []
  | v :: l => bare v :: bareList l

/-- for the values of a dict -/
def bareDict : List (Str × DVal) → List (Str × DVal)
  | [] => []
  | (k, v) :: l => (k, bare v) :: bareDict l

end

end Verif.Spec
