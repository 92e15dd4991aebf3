import Verif.Py
/-! Model of `parse_margin` and `get_page_size` of `pdfme/utils.py`. Numbers are of an arbitrary type
`N`; `float(s)` of a string is a parameter `pf` (`none` stands for `ValueError`). -/
namespace Verif

/-- what a caller may pass as a margin (utils.py:85) -/
inductive MarginIn (N : Type)
  | dict (l : List (Str × N))
  | str (s : Str)
  | num (n : N)
  | list (l : List N)
  | tuple (l : List N)
  | other

/-- `[float(x) for x in margin]` -/
def floats {N} (pf : Str → Option N) : List Str → Except PyErr (List N)
  | [] => .ok []
  | s :: l => match pf s, floats pf l with
    | none, _ => .error .valueError
    | some _, .error e => .error e
    | some v, .ok vs => .ok (v :: vs)

/-- the dict comprehension over `zip(['top', 'right', 'bottom', 'left'], margin)`, utils.py:135 -/
def zipSides {N} (l : List N) : List (Str × N) :=
  [c!"top", c!"right", c!"bottom", c!"left"].zip l

/-- the list/tuple branch of `parse_margin`, utils.py:123-135; for a tuple of three numbers
`margin + [margin[1]]` adds a list to a tuple, a `TypeError`. -/
def marginSeq {N} [OfNat N 0] (isTuple : Bool) (l : List N) : Except PyErr (List (Str × N)) :=
  match l with
  | [] => .ok (zipSides (List.replicate 4 0))
  | [a] => .ok (zipSides [a, a, a, a])
  | [a, b] => .ok (zipSides [a, b, a, b])
  | [a, b, c] => if isTuple then .error .typeError else .ok (zipSides [a, b, c, b])
  | [a, b, c, d] => .ok (zipSides [a, b, c, d])
  | l => .ok (zipSides (l.take 4))

/-- `parse_margin`, utils.py:85-137; a string with one piece calls `float` on a list, a
`TypeError`. -/
def parseMargin {N} [OfNat N 0] (pf : Str → Option N) : MarginIn N → Except PyErr (List (Str × N))
  | .dict l => .ok l
  | .str s =>
    let parts := splitCommaSpace s
    if parts.length = 1 then .error .typeError
    else match floats pf parts with
      | .ok vs => marginSeq false vs
      | .error e => .error e
  | .num n => .ok (zipSides [n, n, n, n])
  | .list l => marginSeq false l
  | .tuple l => marginSeq true l
  | .other => .error .typeError

/-- `page_sizes`, utils.py:4-15, in thousandths of a point. -/
def pageSizes : List (Str × (Nat × Nat)) :=
  [(c!"a5", (419528, 595276)), (c!"a4", (595276, 841890)), (c!"a3", (841890, 1190551)),
   (c!"b5", (498898, 708661)), (c!"b4", (708661, 1000630)), (c!"jis-b5", (515906, 728504)),
   (c!"jis-b4", (728504, 1031812)), (c!"letter", (612000, 792000)), (c!"legal", (612000, 1008000)),
   (c!"ledger", (792000, 1224000))]

/-- what a caller may pass as a page size -/
inductive SizeIn (N : Type)
  | num (n : N)
  | str (s : Str)
  | seq (l : List N)
  | other

/-- `get_page_size`, utils.py:54-83; `thousandths` turns the table entries into numbers. -/
def getPageSize {N} (thousandths : Nat → N) : SizeIn N → Except PyErr (List N)
  | .num n => .ok [n, n]
  | .str s => match pageSizes.find? (fun p => p.1 = s) with
    | some p => .ok [thousandths p.2.1, thousandths p.2.2]
    | none => .error .keyError
  | .seq l => .ok l
  | .other => .error .exception

end Verif
