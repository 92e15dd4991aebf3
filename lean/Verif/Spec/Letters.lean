import Verif.Model.Text
import Verif.Spec.Words
/-! The letters of a paragraph as it is written, and of its lines. -/
namespace Verif.Spec

/-- the code points of white space, as in `str.isspace` of Python -/
def whiteSpace : List Nat :=
  [9, 10, 11, 12, 13, 28, 29, 30, 31, 32, 0x85, 0xa0, 0x1680, 0x2000, 0x2001, 0x2002, 0x2003, 0x2004, 0x2005, 0x2006, 0x2007, 0x2008, 0x2009, 0x200a, 0x2028, 0x2029, 0x202f, 0x205f, 0x3000]

/-- a letter with its style and ids -/
abbrev Letter := Char × TLook × Option (List Str)

/-- a letter, or a separator -/
def letterTok (look : TLook) (ids : Option (List Str)) (c : Char) : WTok Letter := if c.toNat ∈ whiteSpace then .sep else .word (c, look, ids)

/-- a paragraph as it is written: texts, line breaks, and elements without text -/
inductive ParSrc
  | br
  | skip
  | text (s : Str) (look : TLook) (ids : Option (List Str))

def ParSrc.letters : ParSrc → List (WTok Letter)
  | .br => [.sep]
  | .skip => []
  | .text s look ids => s.map (letterTok look ids)

/-- the letters of a line, and its end -/
def lineLetters (l : TLine × Bool) : List (WTok Letter) := (l.1.parts.flatMap fun p => p.words.flatten.map (letterTok p.look p.ids)) ++ [.sep]

end Verif.Spec

namespace Verif

/-- what is laid out: the texts in words, text.py:697-702 -/
def Spec.ParSrc.item : Spec.ParSrc → TItem
  | .br => .br
  | .skip => .skip
  | .text s look ids => .text (splitWords s) look ids

end Verif
