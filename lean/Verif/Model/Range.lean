import Verif.Py
/-! Model of the range strings of `pdfme/utils.py` (pages of `per_page`) and of the position strings of
`pdfme/table.py`. -/
namespace Verif

/-- A Python `range` object. -/
structure PyRange where
  start : Int
  stop : Int
  step : Int
  deriving DecidableEq, Repr

/-- `range(*args)`: one to three integers, a zero step is a `ValueError`. -/
def mkRange : List Int → Except PyErr PyRange
  | [b] => .ok ⟨0, b, 1⟩
  | [a, b] => .ok ⟨a, b, 1⟩
  | [a, b, c] => if c = 0 then .error .valueError else .ok ⟨a, b, c⟩
  | _ => .error .typeError

/-- `n in range_` as CPython computes it for an `int` (`range_contains_long`). -/
def PyRange.contains (r : PyRange) (n : Int) : Bool :=
  if r.step > 0 then
    (r.start ≤ n && n < r.stop) && (n - r.start) % r.step == 0
  else
    (n ≤ r.start && r.stop < n) && (n - r.start) % r.step == 0

/-- number of elements of a range (`compute_range_length`) -/
def PyRange.len (r : PyRange) : Nat :=
  if r.step > 0 then
    if r.start < r.stop then ((r.stop - r.start - 1) / r.step + 1).toNat else 0
  else
    if r.stop < r.start then ((r.start - r.stop - 1) / (-r.step) + 1).toNat else 0

/-- iteration over a range -/
def PyRange.toList (r : PyRange) : List Int :=
  (List.range r.len).map fun (k : Nat) => r.start + (k : Int) * r.step

/-- `MuiltiRange.__contains__`, utils.py:388-389. -/
def multiContains (rs : List PyRange) (n : Int) : Bool := rs.any fun r => r.contains n

/-- `d if s.strip() == '' else int(s)`, utils.py:411-412 and table.py:304-310 (`int` itself ignores the
surrounding blanks). -/
def intOr (d : Int) (s : Str) : Except PyErr Int := if strip s = [] then .ok d else parseInt s

/-- One part of the string: the loop body of `parse_range_string`, utils.py:406-417. With more than
three pieces the rest stay strings and `range` raises `TypeError`. -/
def parseRangePart (part : Str) : Except PyErr PyRange :=
  match splitOn ':' part with
  | [] => .error .typeError  -- `split` never returns an empty list
  | [p] => do
    let index ← parseInt (strip p)
    mkRange [index, index + 1]
  | first :: second :: rest => do
    let a ← intOr 0 first
    let b ← parseInt (strip second)
    match rest with
    | [] => mkRange [a, b]
    | third :: more => do
      let c ← parseInt (strip third)
      match more with
      | [] => mkRange [a, b, c]
      | _ => .error .typeError

/-- `parse_range_string`, utils.py:393-419. -/
def parseRanges : List Str → Except PyErr (List PyRange)
  | [] => .ok []
  | p :: ps => do
    let r ← parseRangePart p
    let rs ← parseRanges ps
    pure (r :: rs)

/-- `parse_range_string`, utils.py:393-419. -/
def parseRangeString (s : Str) : Except PyErr (List PyRange) := parseRanges (splitOn ',' s)

/-- `num if num >= 0 else count + num` -/
def fromCount (count : Nat) (num : Int) : Int := if num ≥ 0 then num else count + num

/-- The list branch of `PDFTable.parse_range_string`, table.py:313-316. -/
def parseIndexes (count : Nat) : List Str → Except PyErr (List Int)
  | [] => .ok []
  | p :: ps => do
    let i ← parseInt p
    let is ← parseIndexes count ps
    pure ((if i < 0 then count + i else i) :: is)

/-- The range branch of `PDFTable.parse_range_string`, table.py:302-311. -/
def tableRange (count : Nat) (data : Str) : Except PyErr PyRange :=
  match splitOn ':' data with
  | [] => .error .typeError
  | [p] => do  -- not reached: the string contains a colon
    let a ← intOr 0 p
    mkRange [fromCount count a]
  | first :: second :: rest => do
    let a ← intOr 0 first
    let b ← intOr count second
    match rest with
    | [] => mkRange [fromCount count a, fromCount count b]
    | third :: more => do
      let c ← intOr 1 third
      match more with
      | [] => mkRange [fromCount count a, fromCount count b, c]
      | _ => .error .typeError

/-- `PDFTable.parse_range_string`, table.py:287-316. The result is the list of indexes in iteration
order. -/
def tableIndexes (data : Str) (count : Nat) : Except PyErr (List Int) :=
  let data := if data = [] then c!":" else data
  if ':' ∈ data then do
    let r ← tableRange count data
    pure r.toList
  else parseIndexes count (splitOn ',' data)

/-- `PDFTable.parse_pos_string`, table.py:261-285: `zip` ignores a third part. -/
def posList (pos : Str) (rows cols : Nat) : Except PyErr (List (Int × Int)) :=
  let (r, c) := match splitOn ';' pos with
    | [] => ([], c!":")
    | [r] => (r, c!":")
    | r :: c :: _ => (r, c)
  do
    let is ← tableIndexes r rows
    let js ← tableIndexes c cols
    pure (is.flatMap fun i => js.map fun j => (i, j))

end Verif
