import Verif.Model.Image
/-!
# Model of `PDFImage.__init__` (image.py:31-80)

The files that are opened and closed are part of the result. Simplifications: a file that cannot be opened raises `OSError`; paths are those of
POSIX, and a `Path` is given by its string; `lower` is that of ASCII (no other letter has a lower case that is one of j, p, g, e, n); what
Pillow makes of a PNG file is any function of its bytes.
-/
namespace Verif

/-- a file-like object: its bytes and its position -/
structure FileObj where
  data : Bytes
  pos : Nat

/-- the argument `image` -/
inductive ImageArg
  | str (s : Str)
  | path (s : Str)
  | file (f : FileObj)
  | other

/-- the argument `extension`: absent or `None`, a string, something else -/
inductive ExtArg
  | none
  | str (s : Str)
  | other

/-- what is around: the files by their paths, and Pillow -/
structure ImageEnv where
  files : Str → Option Bytes
  pillow : Bytes → Except PyErr Bytes

/-- what happens to the files and what comes out: the name, the width, the height and the PDF object -/
structure ImageOut where
  opened : List Str
  closed : List Str
  result : Except PyErr (Str × Nat × Nat × Obj)

/-- what follows the last `c`, everything if there is none: `s.rpartition(c)[-1]` -/
def afterLast (c : Char) (s : Str) : Str := (s.reverse.takeWhile fun x => x ≠ c).reverse

/-- `Path.suffix`: the last dot of the last component and what follows it, if something precedes and something follows it -/
def pathSuffix (s : Str) : Str :=
  let name := afterLast '/' s
  let ext := afterLast '.' name
  if '.' ∈ name ∧ ext.length + 1 < name.length ∧ ext ≠ [] then '.' :: ext else []

/-- `str.lower` of one ASCII letter -/
def lowerChar (c : Char) : Char := if 'A' ≤ c ∧ c ≤ 'Z' then Char.ofNat (c.toNat + 32) else c

/-- image.py:65-68 -/
def normExt (e : Str) : Str := (strip (if e.head? = some '.' then e.tail else e)).map lowerChar

/-- `parse_jpg` of a file object that is at some position, image.py:94-132: the scan goes on from there, but the data are the whole file -/
def parseJpgAt (f : FileObj) : Except PyErr (Nat × Nat × Obj) :=
  match jpegScan (f.data.drop f.pos) with
  | .error _ => .error .valueError
  | .ok i => .ok (i.width, i.height, .dict [
      (.str c!"Type", .bytes b!"/XObject"),
      (.str c!"Subtype", .bytes b!"/Image"),
      (.str c!"Width", .int i.width),
      (.str c!"Height", .int i.height),
      (.str c!"ColorSpace", .bytes i.colspace),
      (.str c!"BitsPerComponent", .int i.depth),
      (.str c!"Filter", .bytes b!"/DCTDecode"),
      (kSkip, .bool true),
      (kStream, .bytes f.data)])

/-- `parse_png`, image.py:149-169: Pillow reads the file from its beginning -/
def parsePng (env : ImageEnv) (f : FileObj) : Except PyErr (Nat × Nat × Obj) :=
  match env.pillow f.data with
  | .error e => .error e
  | .ok d => parseJpgAt ⟨d, 0⟩

/-- image.py:62-77: the kind of the image by its extension -/
def parseByExt (env : ImageEnv) (f : FileObj) : ExtArg → Except PyErr (Nat × Nat × Obj)
  | .str e =>
    if normExt e = c!"jpg" ∨ normExt e = c!"jpeg" then parseJpgAt f
    else if normExt e = c!"png" then parsePng env f
    else .error .notImplemented
  | _ => .error .typeError

/-- the state inside the `try`: `image_bytes` as the path it was opened by, if it was opened here, and the files opened -/
structure ImageState where
  handle : Option Str
  opened : List Str

/-- image.py:34-60: find the bytes, the name and the extension -/
def imageSource (env : ImageEnv) (image : ImageArg) (extension : ExtArg) (imageName : Option Str) :
    ImageState × Except PyErr (FileObj × Str × ExtArg) :=
  match image with
  | .str s => match env.files s with
    | none => (⟨none, []⟩, .error .osError)
    | some d => (⟨some s, [s]⟩, .ok (⟨d, 0⟩, s, match extension with
        | .none => .str (afterLast '.' s)
        | e => e))
  | .path s => match env.files s with
    | none => (⟨none, []⟩, .error .osError)
    | some d => (⟨some s, [s]⟩, .ok (⟨d, 0⟩, s, match extension with
        | .none => .str (pathSuffix s)
        | e => e))
  | .file f => match imageName with
    | none => (⟨none, []⟩, .error .typeError)
    | some n => match extension with
      | .none => (⟨none, []⟩, .error .typeError)
      | e => (⟨none, []⟩, .ok (f, n, e))
  | .other => (⟨none, []⟩, .error .typeError)

/-- `PDFImage.__init__`, image.py:31-80; the `finally` of image.py:78-80 closes what was opened here -/
def imageInit (env : ImageEnv) (image : ImageArg) (extension : ExtArg) (imageName : Option Str) : ImageOut :=
  let (st, src) := imageSource env image extension imageName
  let result := match src with
    | .error e => .error e
    | .ok (f, n, e) => (parseByExt env f e).map fun r => (n, r)
  ⟨st.opened, st.handle.toList, result⟩

end Verif
