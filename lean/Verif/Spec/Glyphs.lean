import Verif.Spec.FileText
/-! # Specification: how the characters of a file are shown

A reader finds the font of a string under its name in the resources of the page (7.8.3). The fonts of the standard
are known by their names (9.6.2.2); size, colour and rise are those of the graphics state. -/
namespace Verif.Spec

/-- the names of the fonts of the standard (9.6.2.2), by family and `n`, `b`, `i` or `bi` -/
def baseFont (family mode : Str) : Option Bytes :=
  if family = c!"Helvetica" then
    if mode = c!"n" then some b!"Helvetica" else if mode = c!"b" then some b!"Helvetica-Bold"
    else if mode = c!"i" then some b!"Helvetica-Oblique" else if mode = c!"bi" then some b!"Helvetica-BoldOblique" else none
  else if family = c!"Times" then
    if mode = c!"n" then some b!"Times-Roman" else if mode = c!"b" then some b!"Times-Bold"
    else if mode = c!"i" then some b!"Times-Italic" else if mode = c!"bi" then some b!"Times-BoldItalic" else none
  else if family = c!"Courier" then
    if mode = c!"n" then some b!"Courier" else if mode = c!"b" then some b!"Courier-Bold"
    else if mode = c!"i" then some b!"Courier-Oblique" else if mode = c!"bi" then some b!"Courier-BoldOblique" else none
  else if family = c!"Symbol" then if mode = c!"n" then some b!"Symbol" else none
  else if family = c!"ZapfDingbats" then if mode = c!"n" then some b!"ZapfDingbats" else none
  else none

/-- the name of a font of the standard: that of the font called `name` on the page -/
def PdfFile.fontName (f : PdfFile) (page : List (Bytes × PObj)) (name : Bytes) : Option Bytes :=
  match (resource b!"Font" name page).bind f.dict with
  | some d =>
    if isName b!"Type" b!"Font" d && isName b!"Subtype" b!"Type1" d then
      match lookup b!"BaseFont" d with
      | some (.name n) => some n
      | _ => none
    else none
  | none => none

/-- a character with its font, size, colour and rise -/
structure Glyph where
  char : Char
  font : Option Bytes
  size : Bytes
  color : List Bytes
  rise : Bytes
  deriving DecidableEq

/-- the characters that are shown, without the blanks; `font` finds the fonts -/
def eventGlyphs (font : Bytes → Option Bytes) (l : List Event) : List Glyph := l.flatMap fun
  | .text gs _ _ s => ((s.map fun b => Char.ofNat b.toNat).filter fun c => !pyIsSpace c).map fun c => ⟨c, font gs.font.1, gs.font.2, gs.fill, gs.rise⟩
  | _ => []

/-- the characters of a text in a style, without the blanks; `font` is its font, and `num` and `col` how numbers and colours are written -/
def lookGlyphs (num : Rat → Bytes) (col : PDFColor Rat → List Bytes) (font : Option Bytes) (look : TLook) (s : Str) : List Glyph :=
  (s.filter fun c => !pyIsSpace c).map fun c => ⟨c, font, num look.st.size, col look.st.color, num look.st.rise⟩

/-- the characters of a paragraph, without the blanks, each in the style it was given -/
def contentGlyphs (num : Rat → Bytes) (col : PDFColor Rat → List Bytes) (content : List TItem) : List Glyph := content.flatMap fun
  | .text ws look _ => lookGlyphs num col (baseFont look.st.family look.st.mode) look ws.flatten
  | _ => []

/-- what the page with the dictionary `page` shows -/
def PdfFile.pageGlyphs (f : PdfFile) (inflate : Bytes → Bytes) (page : List (Bytes × PObj)) : Option (List Glyph) :=
  (f.pageEvents inflate page).map (eventGlyphs (f.fontName page))

end Verif.Spec
