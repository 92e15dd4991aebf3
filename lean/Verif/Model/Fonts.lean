import Verif.Model.Trees
/-!
# Model of `pdfme/fonts.py`

The width tables of the standard fonts are data that no definition here depends on. What `fontTools` reads
from a font file is a `TTFile`; the files are a parameter (`FontFiles`).
-/
namespace Verif

/-- what is used of a font file: its name, the bytes `font.save` writes, the entries of the font descriptor
after `FontName` (fonts.py:325-335), `cids2gids` (fonts.py:262-264, characters with their glyph numbers in
the order of `getBestCmap`), the widths of the glyphs and the units of the font. -/
structure TTFile where
  name : Str
  bytes : Bytes
  descriptor : List (Key × Obj)
  cmap : List (Nat × Nat)
  advance : Nat → Rat
  unitsPerEm : Rat

/-- the font files; `none`: loading it raises (no such file, restricted licence, …) -/
abbrev FontFiles := Str → Option TTFile

/-- a standard font with its base font name, or a font from the file of a path -/
inductive Face
  | std (base : Str)
  | file (path : Str)
  deriving DecidableEq

/-- `PDFFont`: `_ref` and where it is from, fonts.py:85-86, 163-166, 201-205 -/
structure Font where
  ref : Str
  face : Face
  deriving DecidableEq

/-- `STANDARD_FONTS` without the widths, fonts.py:15-36 -/
def standardFonts : List (Str × List (Str × Str)) :=
  [ (c!"Helvetica", [(c!"n", c!"Helvetica"), (c!"b", c!"Helvetica-Bold"), (c!"i", c!"Helvetica-Oblique"),
      (c!"bi", c!"Helvetica-BoldOblique")]),
    (c!"Times", [(c!"n", c!"Times-Roman"), (c!"b", c!"Times-Bold"), (c!"i", c!"Times-Italic"),
      (c!"bi", c!"Times-BoldItalic")]),
    (c!"Courier", [(c!"n", c!"Courier"), (c!"b", c!"Courier-Bold"), (c!"i", c!"Courier-Oblique"),
      (c!"bi", c!"Courier-BoldOblique")]),
    (c!"Symbol", [(c!"n", c!"Symbol")]),
    (c!"ZapfDingbats", [(c!"n", c!"ZapfDingbats")]) ]

/-- a family and a mode -/
abbrev FKey := Str × Str

/-- the class attributes of `PDFFont`, fonts.py:82-83 -/
structure FProc where
  registered : List (FKey × Str)
  loaded : List FKey

/-- `PDFFont.register`, fonts.py:97-108 -/
def FProc.register (p : FProc) (k : FKey) (path : Str) : FProc := { p with registered := dset k path p.registered }

/-- the attributes of `PDFFonts` -/
structure Fonts where
  fonts : List (Str × List (Str × Font))
  index : Nat

/-- `'F' + str(n)` -/
def fontRef (n : Nat) : Str := 'F' :: natStr n

/-- the inner loop of `__init__`, fonts.py:417-421 -/
def initModes (family : Str) : List (Str × Str) → Fonts → Fonts
  | [], s => s
  | (mode, base) :: l, s =>
    initModes family l
      ⟨dset family (dset mode ⟨fontRef s.index, .std base⟩ ((dget family s.fonts).getD [])) s.fonts, s.index + 1⟩

/-- the loop of `__init__`, fonts.py:415-421 -/
def initFamilies : List (Str × List (Str × Str)) → Fonts → Fonts
  | [], s => s
  | (family, modes) :: l, s => initFamilies l (initModes family modes { s with fonts := dset family [] s.fonts })

/-- `PDFFonts.__init__`, fonts.py:412-421 -/
def Fonts.new : Fonts := initFamilies standardFonts ⟨[], 1⟩

/-- `load_font`, fonts.py:450-463; the font file is read first, nothing changes when that raises -/
def Fonts.load (files : FontFiles) (s : Fonts) (path : Str) (k : FKey) : Except PyErr Fonts :=
  match files path with
  | none => .error .exception
  | some _ =>
    let font : Font := ⟨fontRef s.index, .file path⟩
    let fam := match dget k.1 s.fonts with
      | some fam => fam
      | none => [(c!"n", font)]
    .ok ⟨dset k.1 (dset k.2 font fam) s.fonts, s.index + 1⟩

/-- `family['n'] if mode not in family else family[mode]`, fonts.py:448 -/
def pickMode (mode : Str) (fam : List (Str × Font)) : Except PyErr Font :=
  match dget mode fam with
  | some f => .ok f
  | none => match dget c!"n" fam with
    | some f => .ok f
    | none => .error .keyError

/-- is it the name of a standard family? -/
def isStandard (family : Str) : Bool := standardFonts.any fun f => f.1 = family

/-- `self.fonts[font_family]`, then fonts.py:448 -/
def Fonts.pick (s : Fonts) (k : FKey) : Except PyErr Font :=
  match dget k.1 s.fonts with
  | none => .error .keyError
  | some fam => pickMode k.2 fam

/-- `get_font`, fonts.py:423-448: the font with the states afterwards. Whenever it raises, it has changed
nothing: after `load_font` the family has an entry `'n'`. -/
def Fonts.getFont (files : FontFiles) (p : FProc) (s : Fonts) (k : FKey) : Except PyErr (Font × FProc × Fonts) :=
  if isStandard k.1 then (s.pick k).map (·, p, s)
  else match dget k p.registered with
    | none => .error .valueError
    | some path =>
      if k ∈ p.loaded then (s.pick k).map (·, p, s)
      else match s.load files path k with
        | .error e => .error e
        | .ok s' => (s'.pick k).map (·, { p with loaded := p.loaded ++ [k] }, s')

/-! ### Embedding -/

def kSubtype : Key := .str c!"Subtype"
def kBaseFont : Key := .str c!"BaseFont"
def kEncoding : Key := .str c!"Encoding"

/-- `subs('/{}', base_font)` -/
def nameBytes (s : Str) : Obj := .bytes (b!"/" ++ s.map latin1)

/-- the dict of `PDFStandardFont.add_font`, fonts.py:183-190 -/
def stdFontDict (base : Str) : List (Key × Obj) :=
  [(kType, .bytes b!"/Font"), (kSubtype, .bytes b!"/Type1"), (kBaseFont, nameBytes base),
   (kEncoding, .bytes b!"/WinAnsiEncoding")]

/-- one item of the array `W`: a first glyph number or the widths from there on -/
inductive WItem
  | first (g : Nat)
  | widths (l : List Rat)
  deriving DecidableEq

/-- the loop of `compute_char_widths`, fonts.py:391-403: `widths`, `current_width_group` and `prev_glyph_id`;
the entries are the glyph numbers with their scaled widths -/
def widthLoop : List (Nat × Rat) → List WItem × List Rat × Nat → List WItem × List Rat × Nat
  | [], s => s
  | (g, w) :: l, (ws, cur, prev) =>
    if ws = [] then widthLoop l ([.first g], cur ++ [w], g)
    else if g ≠ prev + 1 then widthLoop l (ws ++ [.widths cur, .first g], [w], g)
    else widthLoop l (ws, cur ++ [w], prev)

/-- `compute_char_widths`, fonts.py:382-407 -/
def charWidths (l : List (Nat × Rat)) : List WItem :=
  let r := widthLoop l ([], [], 0)
  r.1 ++ [.widths r.2.1]

/-- the glyphs of a file with the widths in thousandths, fonts.py:280, 392-393, 403 -/
def TTFile.glyphs (f : TTFile) : List (Nat × Rat) :=
  f.cmap.map fun c => (c.2, f.advance c.2 * (1000 / f.unitsPerEm))

/-- upper case hexadecimal digit -/
def hexUp (n : Nat) : Char := if n < 10 then Char.ofNat (48 + n) else Char.ofNat (55 + n)

/-- the hexadecimal digits of a number, `hex(n)[2:].upper()` -/
def hexStr (n : Nat) : Str := if _h : n < 16 then [hexUp n] else hexStr (n / 16) ++ [hexUp (n % 16)]
  termination_by n
  decreasing_by omega

/-- `cmap_hex_format(hex(n))`, fonts.py:40-45 -/
def cmapHex (n : Nat) : Str := '<' :: zfill 4 (hexStr n) ++ ['>']

/-- `get_tounicode_cmap`, fonts.py:38-71 -/
def toUnicode (cmap : List (Nat × Nat)) : Str :=
  let lines := cmap.map fun c => cmapHex c.2 ++ c!" " ++ cmapHex c.1
  c!"/CIDInit /ProcSet findresource begin\n        12 dict begin\n        begincmap\n        /CIDSystemInfo\n         <</Registry (Adobe)\n           /Ordering (UCS)\n           /Supplement 0\n        >> def\n        /CMapName /Adobe-Identity-UCS def\n        /CMapType 2 def\n        1 begincodespacerange\n        <0000> <FFFF>\n        endcodespacerange\n        "
    ++ natStr cmap.length ++ c!" beginbfchar\n        " ++ List.intercalate ['\n'] lines ++
    c!"\n        endbfchar\n        endcmap\n        CMapName currentdict /CMap defineresource pop\n        end\n        end"

/-- the array `W` as an object; `num` is how a float is written -/
def wObj (num : Rat → Obj) : WItem → Obj
  | .first g => .int g
  | .widths l => .seq (l.map num)

/-- `PDFTrueTypeFont.add_font`, fonts.py:337-377: the id of the last object. (The code puts the same
descriptor dict into the document when a font is added again; here every object has its own dict.) -/
def addTTFont (num : Rat → Obj) (b : Base) (f : TTFile) : Nat × Base :=
  let r1 := b.addDict [(kFilter, .bytes b!"/FlateDecode"), (kStream, .bytes f.bytes), (.str c!"Length1", .int f.bytes.length)]
  let r2 := r1.2.addDict (dset (.str c!"FontFile2") (.ref r1.1)
    ((kType, .bytes b!"/FontDescriptor") :: (.str c!"FontName", nameBytes f.name) :: f.descriptor))
  let r3 := r2.2.addDict [(kType, .bytes b!"/Font"), (.str c!"FontDescriptor", .ref r2.1), (kBaseFont, nameBytes f.name),
    (kSubtype, .bytes b!"/CIDFontType2"), (.str c!"CIDToGIDMap", .bytes b!"/Identity"),
    (.str c!"CIDSystemInfo", .dict [(.str c!"Registry", .str c!"Adobe"), (.str c!"Ordering", .str c!"Identity"),
      (.str c!"Supplement", .int 0)]),
    (.str c!"W", .seq ((charWidths f.glyphs).map (wObj num)))]
  let r4 := r3.2.addDict [(kFilter, .bytes b!"/FlateDecode"), (kStream, .bytes ((toUnicode f.cmap).map latin1))]
  r4.2.addDict [(kType, .bytes b!"/Font"), (kSubtype, .bytes b!"/Type0"), (kBaseFont, nameBytes f.name),
    (kEncoding, .bytes b!"/Identity-H"), (.str c!"DescendantFonts", .seq [.ref r3.1]), (.str c!"ToUnicode", .ref r4.1)]

/-- `font.add_font(base)`; a file that could be loaded is there -/
def addFontObj (num : Rat → Obj) (files : FontFiles) (b : Base) (f : Font) : Except PyErr (Nat × Base) :=
  match f.face with
  | .std base => .ok (b.addDict (stdFontDict base))
  | .file path => match files path with
    | none => .error .exception
    | some t => .ok (addTTFont num b t)

end Verif
