import Verif.Model.Parser
/-!
# Model of `pdfme/image.py`

The file object is the list of bytes from its current position, which is taken to be its beginning.
PNG conversion (image.py:149-169) is done by Pillow and not modelled: the bytes Pillow writes go through
`parseJpg` like any others.
-/
namespace Verif

/-- values found by the scan of image.py:94-123 -/
structure JpegInfo where
  depth : Nat
  height : Nat
  width : Nat
  colspace : Bytes
  deriving DecidableEq, Repr

/-- image.py:110-115 -/
def sofMarker (m : UInt8) : Bool :=
  (0xC0 ≤ m && m ≤ 0xC3) || (0xC5 ≤ m && m ≤ 0xC7) || (0xC9 ≤ m && m ≤ 0xCB) || (0xCD ≤ m && m ≤ 0xCF)

/-- image.py:101-105 -/
def bareMarker (m : UInt8) : Bool :=
  m = 0xC8 || (0xD0 ≤ m && m ≤ 0xD9) || (0xF0 ≤ m && m ≤ 0xFD)

/-- image.py:118-123 -/
def colspaceOf (layers : UInt8) : Bytes :=
  if layers = 3 then b!"/DeviceRGB" else if layers = 4 then b!"/DeviceCMYK" else b!"/DeviceGray"

/-- `struct.unpack_from(">BHHB", data)`, image.py:116: needs six bytes -/
def unpackFrame : Bytes → Except PyErr JpegInfo
  | d :: h1 :: h2 :: w1 :: w2 :: l :: _ =>
    .ok ⟨d.toNat, 256 * h1.toNat + h2.toNat, 256 * w1.toNat + w2.toNat, colspaceOf l⟩
  | _ => .error .structError

/-- the loop of image.py:95-125. `struct.unpack` raises when `read` returned fewer bytes;
`SyntaxError` is `PyErr.exception` here. -/
def jpegScan : Bytes → Except PyErr JpegInfo
  | hi :: lo :: rest =>
    if hi ≠ 0xFF ∨ lo < 0xC0 then .error .exception
    else if lo = 0xDA then .error .exception
    else if bareMarker lo then jpegScan rest
    else match rest with
      | s1 :: s2 :: rest' =>
        let size := 256 * s1.toNat + s2.toNat
        if sofMarker lo then unpackFrame (rest'.take (size - 2))
        else jpegScan (rest'.drop (size - 2))
      | _ => .error .structError
  | _ => .error .structError
termination_by l => l.length
decreasing_by all_goals simp [List.length_drop]; try omega

/-- image.py:82-147: the attributes `width`, `height` and `pdf_obj`; every exception of the scan becomes
`ValueError` (image.py:126-128) -/
def parseJpg (data : Bytes) : Except PyErr (Nat × Nat × Obj) :=
  match jpegScan data with
  | .error _ => .error .valueError
  | .ok i => .ok (i.width, i.height, .dict [
      (.str c!"Type", .bytes b!"/XObject"),
      (.str c!"Subtype", .bytes b!"/Image"),
      (.str c!"Width", .int i.width),
      (.str c!"Height", .int i.height),
      (.str c!"ColorSpace", .bytes i.colspace),
      (.str c!"BitsPerComponent", .int i.depth),
      (.str c!"Filter", .bytes b!"/DCTDecode"),
      (kSkip, .bool true),
      (kStream, .bytes data)])

end Verif
