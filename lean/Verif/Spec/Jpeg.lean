import Verif.Py
/-!
# The marker structure of a JPEG file (ITU T.81 annex B), as far as it precedes the frame header

Independent of the model.
-/
namespace Verif.Spec.Jpeg

/-- start-of-frame markers SOF0–SOF15; C4 (DHT), C8 (JPG) and CC (DAC) are not among them -/
def isSOF (m : UInt8) : Bool := 0xC0 ≤ m && m ≤ 0xCF && m ≠ 0xC4 && m ≠ 0xC8 && m ≠ 0xCC

/-- RSTn, SOI, EOI: markers without a segment -/
def isStandAlone (m : UInt8) : Bool := 0xD0 ≤ m && m ≤ 0xD9

/-- markers of segments other than frames and scans: DHT, DAC, DQT, DNL, DRI, DHP, EXP, APPn, COM -/
def isSegment (m : UInt8) : Bool :=
  m = 0xC4 || m = 0xCC || (0xDB ≤ m && m ≤ 0xDF) || (0xE0 ≤ m && m ≤ 0xEF) || m = 0xFE

/-- a big-endian 16 bit number -/
def be16 (hi lo : UInt8) : Nat := 256 * hi.toNat + lo.toNat

/-- what may precede the frame header -/
inductive Part
  | alone (m : UInt8)
  | segment (m hi lo : UInt8) (data : Bytes)

def Part.bytes : Part → Bytes
  | .alone m => [0xFF, m]
  | .segment m hi lo data => 0xFF :: m :: hi :: lo :: data

/-- the length field of a segment counts itself and the data -/
def Part.Ok : Part → Prop
  | .alone m => isStandAlone m = true
  | .segment m hi lo data => isSegment m = true ∧ be16 hi lo = data.length + 2

/-- a frame header: marker, length, precision, height, width, number of components, then the
component parameters (three bytes each) -/
structure Frame where
  m : UInt8
  lenHi : UInt8
  lenLo : UInt8
  depth : UInt8
  hHi : UInt8
  hLo : UInt8
  wHi : UInt8
  wLo : UInt8
  comps : UInt8
  params : Bytes

def Frame.bytes (f : Frame) : Bytes :=
  [0xFF, f.m, f.lenHi, f.lenLo, f.depth, f.hHi, f.hLo, f.wHi, f.wLo, f.comps] ++ f.params

def Frame.Ok (f : Frame) : Prop :=
  isSOF f.m = true ∧ f.params.length = 3 * f.comps.toNat ∧ be16 f.lenHi f.lenLo = 8 + f.params.length

/-- the colour space for a number of components -/
def colorSpace (comps : UInt8) : Bytes :=
  if comps = 3 then b!"/DeviceRGB" else if comps = 4 then b!"/DeviceCMYK" else b!"/DeviceGray"

end Verif.Spec.Jpeg
