import Verif.PyDict
/-!
# Model of `pdfme/parser.py` and `pdfme/encoders.py`

Python values that can be serialised are trees (`Obj`); sharing of one mutable value in two places and
cyclic values are not modelled. Mutation is modelled by returning the value as it is after the call.
-/
namespace Verif

/-- Keys of a Python dict (the page stream dict uses `int` keys, page.py:85-86). -/
inductive Key
  | str (s : Str)
  | int (i : Int)
  deriving DecidableEq, Repr

/-- The Python values `parse_obj` distinguishes (parser.py:52-54, 67-85). -/
inductive Obj
  | ref (id : Int)                    -- `PDFRef`
  | bool (b : Bool)
  | int (i : Int)
  | flt (repr : Str)                  -- a float, represented by its `str()`
  | str (s : Str)
  | bytes (b : Bytes)
  | seq (l : List Obj)                -- list, tuple, set (in iteration order)
  | dict (items : List (Key × Obj))   -- in insertion order
  | pobj (value : Obj)                -- a `PDFObject`
  | other                             -- any other type, e.g. `None`
  deriving Repr

/-- What a call of `parse_obj` does: raise, return `None` (no branch taken, parser.py:84-85), or
return bytes. -/
abbrev Ret := Except PyErr (Option Bytes)

section dict
variable {α : Type}

/-- `d.pop(k)` (the remaining dict) -/
def ddel (k : Key) (l : List (Key × α)) : List (Key × α) := l.filter fun e => e.1 ≠ k

end dict

/-- Python truthiness (used for the value of `__skip_filter__`, parser.py:158). -/
def truthy : Obj → Bool
  | .ref i => i ≠ 0
  | .bool b => b
  | .int i => i ≠ 0
  | .flt r => r ≠ c!"0.0" ∧ r ≠ c!"-0.0"
  | .str s => s ≠ []
  | .bytes b => b ≠ []
  | .seq l => !l.isEmpty
  | .dict l => !l.isEmpty
  | .pobj _ => true
  | .other => false

/-- encoders.py:3-44. `flate` stands for `zlib.compress`. -/
def encodeStream (flate : Bytes → Bytes) (stream : Bytes) (filter : Obj) : Except PyErr Bytes :=
  match filter with
  | .bytes f =>
    if f = b!"/FlateDecode" then .ok (flate stream)
    else if f = b!"/ASCIIHexDecode" ∨ f = b!"/ASCII85Decode" ∨ f = b!"/LZWDecode"
      ∨ f = b!"/RunLengthDecode" ∨ f = b!"/CCITTFaxDecode" ∨ f = b!"/JBIG2Decode"
      ∨ f = b!"/DCTDecode" ∨ f = b!"/JPXDecode" ∨ f = b!"/Crypt" then .error .notImplemented
    else .error .exception
  | _ => .error .attributeError   -- `filter.decode` of a value that is not bytes

/-- `re.sub(r'([()])', r'\\\1', obj)`, parser.py:85 -/
def escParens : Str → Str
  | [] => []
  | c :: cs => if c = '(' ∨ c = ')' then '\\' :: c :: escParens cs else c :: escParens cs

/-- `ret[0] in [b'/', b'(', b'<']` (parser.py:102 and 120): in Python 3 `ret[0]` is an `int`, which is
never equal to a `bytes` value, so the test is always false. -/
def firstIn (_c : UInt8) (_l : List Bytes) : Bool := false

/-- `b'/' + key.encode('latin')`, parser.py:100 -/
def encodeKey : Key → Except PyErr Bytes
  | .str s => match encodeLatin s with
    | .ok b => .ok (b!"/" ++ b)
    | .error e => .error e
  | .int _ => .error .attributeError

/-- A dict item together with what `parse_obj` of its value returns and the value it leaves behind. -/
structure Entry where
  key : Key
  val : Obj
  ret : Ret
  after : Obj

/-- loop of parser.py:99-103; items after the first failing one are not touched -/
def dictLoop (acc : Bytes) : List Entry → Ret × List (Key × Obj)
  | [] => (.ok (some (acc ++ b!">>")), [])
  | e :: es =>
    match encodeKey e.key with
    | .error x => (.error x, (e.key, e.val) :: es.map fun e => (e.key, e.val))
    | .ok kb =>
      match e.ret with
      | .error x => (.error x, (e.key, e.after) :: es.map fun e => (e.key, e.val))
      | .ok none => (.error .typeError, (e.key, e.after) :: es.map fun e => (e.key, e.val))
      | .ok (some []) => (.error .indexError, (e.key, e.after) :: es.map fun e => (e.key, e.val))
      | .ok (some (c :: cs)) =>
        let r := dictLoop
          (acc ++ kb ++ (if !firstIn c [b!"/", b!"(", b!"<"] then b!" " else []) ++ (c :: cs)) es
        (r.1, (e.key, e.after) :: r.2)

/-- parser.py:88-105 -/
def parseDict (es : List Entry) : Ret × List (Key × Obj) := dictLoop b!"<<" es

/-- An element of a sequence with the outcome of `parse_obj` on it. -/
structure Elem where
  val : Obj
  ret : Ret
  after : Obj

/-- loop of parser.py:118-121 -/
def listLoop (acc : Bytes) (i : Nat) : List Elem → Ret × List Obj
  | [] => (.ok (some (acc ++ b!"]")), [])
  | e :: es =>
    match e.ret with
    | .error x => (.error x, e.after :: es.map fun e => e.val)
    | .ok none => (.error .typeError, e.after :: es.map fun e => e.val)
    | .ok (some []) => (.error .indexError, e.after :: es.map fun e => e.val)
    | .ok (some (c :: cs)) =>
      let r := listLoop (acc ++ (if !firstIn c [b!"/", b!"(", b!"<"] ∧ i ≠ 0 then b!" " else [])
        ++ (c :: cs)) (i + 1) es
      (r.1, e.after :: r.2)

/-- parser.py:107-123 -/
def parseList (es : List Elem) : Ret × List Obj := listLoop b!"[" 0 es

def kStream : Key := .str c!"__stream__"
def kSkip : Key := .str c!"__skip_filter__"
def kLength : Key := .str c!"Length"
def kFilter : Key := .str c!"Filter"

/-- `b''.join(stream_.values())`, parser.py:151 -/
def joinValues : List (Key × Obj) → Except PyErr Bytes
  | [] => .ok []
  | (_, .bytes b) :: l => match joinValues l with
    | .ok r => .ok (b ++ r)
    | .error e => .error e
  | _ :: _ => .error .typeError

def Entry.delKey (k : Key) (es : List Entry) : List Entry := es.filter fun e => e.key ≠ k

def Entry.setKey (n : Entry) : List Entry → List Entry
  | [] => [n]
  | e :: es => if e.key = n.key then n :: es else e :: Entry.setKey n es

def Entry.find (k : Key) : List Entry → Option Obj
  | [] => none
  | e :: es => if e.key = k then some e.val else Entry.find k es

def Entry.items (es : List Entry) : List (Key × Obj) := es.map fun e => (e.key, e.val)

/-- `stream_str`, parser.py:148-155 -/
def streamStr : Obj → Except PyErr Bytes
  | .bytes b => .ok b
  | .dict d => joinValues d
  | _ => .error .exception

/-- truthiness of `skip_filter`, parser.py:146 -/
def skipFlag (es : List Entry) : Bool :=
  match Entry.find kSkip es with
  | some v => truthy v
  | none => false

/-- parser.py:157-158 -/
def encodeMaybe (flate : Bytes → Bytes) (skip : Bool) (filter : Option Obj) (s : Bytes) :
    Except PyErr Bytes :=
  match filter with
  | some f => if !skip then encodeStream flate s f else .ok s
  | none => .ok s

/-- the item written by `obj['Length'] = len(stream)`, parser.py:160 -/
def lengthEntry (stream : Bytes) : Entry :=
  ⟨kLength, .int stream.length, .ok (some ((natStr stream.length).map latin1)),
    .int stream.length⟩

/-- parser.py:145-165, on the entries of the dict and the value `stream_` of its `__stream__` key. -/
def parseStream (flate : Bytes → Bytes) (es : List Entry) (stream_ : Obj) :
    Ret × List (Key × Obj) :=
  let es1 := Entry.delKey kStream es                                         -- line 145
  let skip := skipFlag es1
  let es2 := Entry.delKey kSkip es1                                          -- line 146
  match streamStr stream_ with
  | .error x => (.error x, Entry.items es2)
  | .ok s =>
    match encodeMaybe flate skip (Entry.find kFilter es2) s with
    | .error x => (.error x, Entry.items es2)
    | .ok stream =>
      let es3 := Entry.setKey (lengthEntry stream) es2                       -- line 160
      let r := parseDict es3                                                 -- line 161
      match r.1 with
      | .error x => (.error x, r.2)
      | .ok none => (.error .typeError, r.2)
      | .ok (some d) =>
        (.ok (some (d ++ b!"stream\n" ++ stream ++ b!"\nendstream")),
          r.2 ++ [(kStream, stream_)] ++ (if skip then [(kSkip, .bool true)] else []))

mutual
/-- parser.py:56-85: the returned bytes and the value after the call. -/
def parseObj (flate : Bytes → Bytes) : Obj → Ret × Obj
  | .pobj v => let r := parseObj flate v; (r.1, .pobj r.2)
  | .ref i => (.ok (some ((intStr i).map latin1 ++ b!" 0 R")), .ref i)
  | .dict items =>
    let es := parseVals flate items
    match dget kStream items with
    | some s => let r := parseStream flate es s; (r.1, .dict r.2)
    | none => let r := parseDict es; (r.1, .dict r.2)
  | .seq l => let r := parseList (parseElems flate l); (r.1, .seq r.2)
  | .bytes b => (.ok (some b), .bytes b)
  | .bool b => (.ok (some (if b then b!"true" else b!"false")), .bool b)
  | .int i => (.ok (some ((intStr i).map latin1)), .int i)
  | .flt s => (.ok (some (s.map latin1)), .flt s)
  | .str s => (match encodeLatin ('(' :: escParens s ++ [')']) with
      | .ok b => .ok (some b)
      | .error e => .error e, .str s)
  | .other => (.ok none, .other)

/-- `parse_obj` of every value of a dict (in Python called lazily by the loop of `parse_dict`). -/
def parseVals (flate : Bytes → Bytes) : List (Key × Obj) → List Entry
  | [] => []
  | (k, v) :: l =>
    let r := parseObj flate v
    ⟨k, v, r.1, r.2⟩ :: parseVals flate l

/-- `parse_obj` of every element of a sequence. -/
def parseElems (flate : Bytes → Bytes) : List Obj → List Elem
  | [] => []
  | v :: l =>
    let r := parseObj flate v
    ⟨v, r.1, r.2⟩ :: parseElems flate l
end

end Verif
