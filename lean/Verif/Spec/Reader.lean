import Verif.Spec.PdfObj
/-!
# Specification: opening a PDF file (ISO 32000-1, 7.5)

An executable reader of whole files, written from the PDF standard and independent of the model: from
the end of the file to `startxref`, from there to the cross-reference table and the trailer, and from
the table to the indirect objects, streams included. Files with one cross-reference section of one
subsection are read (no incremental updates, cross-reference streams or encryption).
-/
namespace Verif.Spec

/-- the rest of a byte string after a given beginning -/
def stripPre : Bytes → Bytes → Option Bytes
  | [], b => some b
  | _ :: _, [] => none
  | x :: p, y :: b => if x = y then stripPre p b else none

def isDigit (c : UInt8) : Bool := 48 ≤ c && c ≤ 57

def skipWhite (b : Bytes) : Bytes := b.dropWhile isWhite

/-- Read tokens and build objects from them until one of the keywords `stop` is met. Gives the keyword,
the objects read before it (the last one first) and the bytes after the keyword. -/
def readUntil (stop : List Bytes) : LexState → List Item → Bytes → Option (Bytes × List Item × Bytes)
  | _, _, [] => none
  | s, st, c :: cs =>
    match stop.find? fun w => s = .word w ∧ isRegular c = false with
    | some w => some (w, st, c :: cs)
    | none => match shiftAll st (lexStep s c).2 with
      | some st' => readUntil stop (lexStep s c).1 st' cs
      | none => none

/-- value of a key of a dictionary that has been read -/
def lookup (k : Bytes) (d : List (Bytes × PObj)) : Option PObj :=
  (d.find? fun p => p.1 = k).map Prod.snd

/-- The end-of-line marker after the keyword `stream`: LF or CR LF (7.3.8.1). -/
def afterEol : Bytes → Option Bytes
  | 10 :: b => some b
  | 13 :: 10 :: b => some b
  | _ => none

/-- The data of a stream: `Length` bytes after the end of line, then `endstream` and `endobj`. -/
def readData (d : List (Bytes × PObj)) (b : Bytes) : Option Bytes :=
  match lookup b!"Length" d, afterEol b with
  | some (.int (.ofNat n)), some data =>
    if n ≤ data.length then
      match readUntil [b!"endstream"] .idle [] (data.drop n) with
      | some (_, [], r) =>
        match readUntil [b!"endobj"] .idle [] r with
        | some (_, [], _) => some (data.take n)
        | _ => none
      | _ => none
    else none
  | _, _ => none

/-- An indirect object as it is in the file: number, generation, value and, for a stream, its data
(still filtered). -/
structure Indirect where
  num : Int
  gen : Int
  value : PObj
  data : Option Bytes

/-- Read the indirect object at the beginning of a byte string (7.3.10). -/
def readIndirect (b : Bytes) : Option Indirect :=
  match readUntil [b!"obj"] .idle [] b with
  | some (_, [.obj (.int g), .obj (.int n)], r) =>
    match readUntil [b!"endobj", b!"stream"] .idle [] r with
    | some (w, [.obj o], r) =>
      if w = b!"endobj" then some ⟨n, g, o, none⟩
      else match o with
        | .dict d => (readData d r).map fun data => ⟨n, g, .dict d, some data⟩
        | _ => none
    | _ => none
  | _ => none

/-- An entry of the cross-reference table (7.5.4). -/
structure XEntry where
  off : Nat
  gen : Nat
  inUse : Bool
  deriving DecidableEq, Repr

/-- an entry: exactly 20 bytes `nnnnnnnnnn ggggg n` and a two-character end of line -/
def readEntry (b : Bytes) : Option XEntry :=
  let off := b.take 10
  let gen := (b.drop 11).take 5
  let eol := b.drop 18
  if b.length = 20 ∧ isDecimal off ∧ b[10]? = some 32 ∧ isDecimal gen ∧ b[16]? = some 32
      ∧ (b[17]? = some 110 ∨ b[17]? = some 102)
      ∧ (eol = [32, 10] ∨ eol = [32, 13] ∨ eol = [13, 10]) then
    some ⟨decVal off, decVal gen, b[17]? = some 110⟩
  else none

def readEntries : Nat → Bytes → Option (List XEntry × Bytes)
  | 0, b => some ([], b)
  | n + 1, b => match readEntry (b.take 20), readEntries n (b.drop 20) with
    | some e, some (es, r) => some (e :: es, r)
    | _, _ => none

/-- a number and the bytes after it -/
def readNat (b : Bytes) : Option (Nat × Bytes) :=
  let ds := b.takeWhile isDigit
  if ds.isEmpty then none else some (decVal ds, b.dropWhile isDigit)

/-- the end of the file: `startxref`, a position, `%%EOF` (7.5.5); read backwards -/
def readStart (file : Bytes) : Option Nat :=
  match stripPre (b!"%%EOF").reverse (skipWhite file.reverse) with
  | none => none
  | some r =>
    let r := skipWhite r
    let ds := r.takeWhile isDigit
    match stripPre (b!"startxref").reverse (skipWhite (r.dropWhile isDigit)) with
    | none => none
    | some _ => if ds.isEmpty then none else some (decVal ds.reverse)

/-- An open file. -/
structure PdfFile where
  bytes : Bytes
  first : Nat
  entries : List XEntry
  trailer : List (Bytes × PObj)

/-- Open a file. -/
def openFile (file : Bytes) : Option PdfFile :=
  match stripPre b!"%PDF-" file, readStart file with
  | some _, some pos =>
    match stripPre b!"xref" (file.drop pos) with
    | none => none
    | some r =>
      match readNat (skipWhite r) with
      | none => none
      | some (first, r) =>
        match readNat (skipWhite r) with
        | none => none
        | some (n, r) =>
          match readEntries n (skipWhite r) with
          | none => none
          | some (es, r) =>
            match stripPre b!"trailer" (skipWhite r) with
            | none => none
            | some r =>
              match readUntil [b!"startxref"] .idle [] r with
              | some (_, [.obj (.dict d)], _) => some ⟨file, first, es, d⟩
              | _ => none
  | _, _ => none

/-- The object with number `n`: found through the cross-reference table; its own number and generation
must be those of the table. -/
def PdfFile.object (f : PdfFile) (n : Nat) : Option (PObj × Option Bytes) :=
  if n < f.first then none
  else match f.entries[n - f.first]? with
    | none => none
    | some e =>
      if e.inUse = false then none
      else match readIndirect (f.bytes.drop e.off) with
        | some i => if i.num = n ∧ i.gen = e.gen then some (i.value, i.data) else none
        | none => none

/-- the data of a stream after undoing its filter (7.4); only `FlateDecode` is known -/
def decodeStream (inflate : Bytes → Bytes) (d : List (Bytes × PObj)) (data : Bytes) : Option Bytes :=
  match lookup b!"Filter" d with
  | none => some data
  | some (.name f) => if f = b!"FlateDecode" then some (inflate data) else none
  | some _ => none

end Verif.Spec
