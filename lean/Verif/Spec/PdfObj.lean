import Verif.Spec.PdfLex
import Verif.Spec.File
/-!
# Specification: reading a PDF object from tokens (ISO 32000-1, 7.3)

A shift-reduce reader over the tokens of `PdfLex`, independent of the model.
-/
namespace Verif.Spec

inductive PObj
  | null
  | bool (b : Bool)
  | int (i : Int)
  | real (text : Bytes)
  | name (b : Bytes)
  | str (b : Bytes)
  | hex (b : Bytes)
  | arr (l : List PObj)
  | dict (l : List (Bytes × PObj))
  | ref (num gen : Int)
  deriving Repr

/-- an integer: optional sign and digits (7.3.3) -/
def readInt (b : Bytes) : Option Int :=
  match b with
  | 45 :: ds => if isDecimal ds then some (-(decVal ds : Int)) else none
  | 43 :: ds => if isDecimal ds then some (decVal ds) else none
  | ds => if isDecimal ds then some (decVal ds) else none

/-- a real: optional sign, digits with exactly one point, at least one digit (7.3.3);
the PDF syntax has no exponents -/
def isReal (b : Bytes) : Bool :=
  let ds := match b with | 45 :: ds => ds | 43 :: ds => ds | ds => ds
  ds.all (fun c => (48 ≤ c && c ≤ 57) || c == 46) && ds.countP (· == 46) == 1
    && ds.any (fun c => 48 ≤ c && c ≤ 57)

inductive Item
  | obj (o : PObj)
  | openArr
  | openDict

def popArr : List Item → List PObj → Option (List PObj × List Item)
  | .obj o :: st, acc => popArr st (o :: acc)
  | .openArr :: st, acc => some (acc, st)
  | _, _ => none

def popDict : List Item → List PObj → Option (List PObj × List Item)
  | .obj o :: st, acc => popDict st (o :: acc)
  | .openDict :: st, acc => some (acc, st)
  | _, _ => none

def pairUp : List PObj → Option (List (Bytes × PObj))
  | [] => some []
  | .name k :: v :: l => (pairUp l).map ((k, v) :: ·)
  | _ => none

/-- one token on the stack of the reader -/
def shift (st : List Item) : Tok → Option (List Item)
  | .word b =>
    if b = b!"R" then match st with
      | .obj (.int g) :: .obj (.int n) :: st => some (.obj (.ref n g) :: st)
      | _ => none
    else if b = b!"true" then some (.obj (.bool true) :: st)
    else if b = b!"false" then some (.obj (.bool false) :: st)
    else if b = b!"null" then some (.obj .null :: st)
    else match readInt b with
      | some i => some (.obj (.int i) :: st)
      | none => if isReal b then some (.obj (.real b) :: st) else none
  | .name b => some (.obj (.name b) :: st)
  | .str b => some (.obj (.str b) :: st)
  | .hex b => some (.obj (.hex b) :: st)
  | .lbrack => some (.openArr :: st)
  | .rbrack => match popArr st [] with
    | some (l, st) => some (.obj (.arr l) :: st)
    | none => none
  | .dictOpen => some (.openDict :: st)
  | .dictClose => match popDict st [] with
    | some (l, st) => (pairUp l).map fun d => .obj (.dict d) :: st
    | none => none
  | _ => none

def shiftAll (st : List Item) : List Tok → Option (List Item)
  | [] => some st
  | t :: ts => match shift st t with
    | some st => shiftAll st ts
    | none => none

/-- read exactly one object from a byte string -/
def readObj (b : Bytes) : Option PObj :=
  match shiftAll [] (lex b) with
  | some [.obj o] => some o
  | _ => none

end Verif.Spec
