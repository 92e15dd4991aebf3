import Verif.Model.Parser
/-!
# Model of `pdfme/base.py`
-/
namespace Verif

/-- `PDFObject` stored in `PDFBase.content` (parser.py:16-20) -/
structure PDFObj where
  id : Nat
  value : Obj

/-- attributes of `PDFBase` (base.py:54-63) -/
structure Base where
  version : Str
  content : List PDFObj
  trailer : List (Key × Obj)
  count : Nat

/-- base.py:54-63 -/
def Base.new (version : Str) (trailer : List (Key × Obj)) : Base :=
  { version, content := [], trailer, count := 1 }

/-- `isinstance(py_obj, allowed_types)`, base.py:83-86 -/
def allowedType : Obj → Bool
  | .other => false
  | _ => true

/-- base.py:65-91 -/
def Base.add (s : Base) (o : Obj) : Except PyErr PDFObj × Base :=
  if !allowedType o then (.error .typeError, s)
  else
    let obj : PDFObj := ⟨s.count, o⟩
    (.ok obj, { s with content := s.content ++ [obj], count := s.count + 1 })

/-- Python list indexing with an `int` -/
def pyIndex {α : Type} (l : List α) (i : Int) : Except PyErr α :=
  let j := if i < 0 then i + l.length else i
  if j < 0 then .error .indexError
  else match l[j.toNat]? with
    | some x => .ok x
    | none => .error .indexError

/-- base.py:93-95 (`none` is Python's `None`) -/
def Base.getItem (s : Base) (i : Int) : Except PyErr (Option PDFObj) :=
  if i = 0 then .ok none
  else match pyIndex s.content (i - 1) with
    | .ok x => .ok (some x)
    | .error e => .error e

/-- base.py:97-99 -/
def Base.setItem (s : Base) (i : Int) (v : PDFObj) : Except PyErr Unit × Base :=
  if 0 < i then
    if (i - 1).toNat < s.content.length then
      (.ok (), { s with content := s.content.set (i - 1).toNat v })
    else (.error .indexError, s)
  else (.ok (), s)

/-- base.py:105-106 -/
def Base.len (s : Base) : Nat := s.content.length

/-- `subs('{} 0 obj\n', i)`, base.py:133 -/
def objHead (i : Nat) : Bytes := (natStr i).map latin1 ++ b!" 0 obj\n"

/-- xref entry of base.py:130 -/
def xrefEntry (count : Nat) : Bytes := (zfill 10 (natStr count)).map latin1 ++ b!" 00000 n \n"

/-- the loop of base.py:129-136. `i` is the number of objects already written, `count` the number of
bytes already written. Returns the bytes written, the xref text, the final count and the objects as
they are afterwards, or an error with the objects as they are afterwards. -/
structure LoopRes where
  err : Option PyErr
  written : Bytes
  xref : Bytes
  count : Nat
  content : List PDFObj

def outputLoop (flate : Bytes → Bytes) : Nat → Nat → List PDFObj → LoopRes
  | _, count, [] => ⟨none, [], [], count, []⟩
  | i, count, o :: os =>
    let r := parseObj flate o.value
    let o' : PDFObj := ⟨o.id, r.2⟩
    match r.1 with
    | .error e => ⟨some e, [], xrefEntry count, count, o' :: os⟩
    | .ok none => ⟨some .typeError, [], xrefEntry count, count, o' :: os⟩
    | .ok (some b) =>
      let bytes := objHead (i + 1) ++ b ++ b!"\nendobj\n"
      let rest := outputLoop flate (i + 1) (count + bytes.length) os
      ⟨rest.err, bytes ++ rest.written, xrefEntry count ++ rest.xref, rest.count,
        o' :: rest.content⟩

def kSize : Key := .str c!"Size"
def kID : Key := .str c!"ID"

/-- Result of `output`: the exception raised, what has been written to the buffer, and the state
afterwards. -/
structure OutRes where
  err : Option PyErr
  written : Bytes
  base : Base

/-- base.py:114-115; `uuid` is `str(uuid4()).replace('-', '')` -/
def trailerId (uuid : Bytes) : Obj := .bytes (b!"<" ++ uuid ++ b!">")

/-- the trailer dict that is serialised, base.py:138-140 -/
def trailerOf (u1 u2 : Bytes) (s : Base) : List (Key × Obj) :=
  match dget kID (dset kSize (.int s.count) s.trailer) with
  | some _ => dset kSize (.int s.count) s.trailer
  | none => dset kID (.seq [trailerId u1, trailerId u2]) (dset kSize (.int s.count) s.trailer)

/-- base.py:117-148; `u1`, `u2` are the two random ids -/
def Base.output (flate : Bytes → Bytes) (u1 u2 : Bytes) (s : Base) : OutRes :=
  match encodeLatin (c!"%PDF-" ++ s.version ++ c!"\n%%\x129\x129\x129\n") with   -- line 123
  | .error e => ⟨some e, [], s⟩
  | .ok header =>
    let xrefHead : Bytes := b!"\nxref\n0 " ++ (natStr s.count).map latin1 ++ b!"\n0000000000 65535 f \n"
    let lp := outputLoop flate 0 header.length s.content
    match lp.err with
    | some e => ⟨some e, header ++ lp.written, { s with content := lp.content }⟩
    | none =>
      let t2 := trailerOf u1 u2 s
      let r := parseObj flate (.dict t2)                                       -- line 141
      let t3 := match r.2 with | .dict d => d | _ => t2
      match r.1 with
      | .error e => ⟨some e, header ++ lp.written, { s with content := lp.content, trailer := t3 }⟩
      | .ok none => ⟨some .typeError, header ++ lp.written,
          { s with content := lp.content, trailer := t3 }⟩
      | .ok (some t) =>
        ⟨none, header ++ lp.written ++ (xrefHead ++ lp.xref ++ b!"trailer\n" ++ t ++
            (b!"\nstartxref\n" ++ (natStr (lp.count + 1)).map latin1 ++ b!"\n%%EOF")),
          { s with content := lp.content, trailer := t3 }⟩

end Verif

namespace Verif

/-- The calls a user can make on a `PDFBase`. -/
inductive BaseOp
  | add (o : Obj)
  | set (i : Int) (v : PDFObj)
  | output (u1 u2 : Bytes)

def Base.step (flate : Bytes → Bytes) (s : Base) : BaseOp → Base
  | .add o => (s.add o).2
  | .set i v => (s.setItem i v).2
  | .output u1 u2 => (s.output flate u1 u2).base

/-- state after a history of calls (calls that raise leave the state the exception left) -/
def Base.run (flate : Bytes → Bytes) (s : Base) (ops : List BaseOp) : Base :=
  ops.foldl (Base.step flate) s

end Verif
