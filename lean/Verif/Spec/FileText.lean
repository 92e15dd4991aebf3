import Verif.Spec.Machine
import Verif.Spec.ReadDoc
import Verif.Spec.TextWords
import Verif.Spec.NumVal
/-! # Specification: reading the text of a file

A reader executes the contents of a page from the initial graphics state and reads the strings that are
shown, one character for every byte (the fonts of the standard with their one byte encodings; ISO 8859-1).
Strings shown from the same place of the text follow each other; strings shown from different places are
apart. Words are separated by blanks. -/
namespace Verif.Spec

/-- the graphics state at the beginning of a page (8.4.1) -/
def GS.initial : GS := ⟨[b!"0"], [b!"0"], b!"1", b!"0", ([], b!"0"), [], ([], []), b!"0", b!"0"⟩
def MS.initial : MS := ⟨GS.initial, [], [], none⟩

/-- what the page with the dictionary `page` paints -/
def PdfFile.pageEvents (f : PdfFile) (inflate : Bytes → Bytes) (page : List (Bytes × PObj)) : Option (List Event) :=
  (f.contents inflate page).bind fun b => (execStream MS.initial b).map Prod.snd

/-- a character, or a separator when it is blank -/
def charTok (c : Char) : WTok Char := if pyIsSpace c then .sep else .word c

/-- the characters of a string that is shown -/
def shownToks (s : Bytes) : List (WTok Char) := s.map fun b => charTok (Char.ofNat b.toNat)

/-- the characters of the strings shown; `place` is where the last of them was shown from -/
def eventToks : Option (List Bytes × List (Bytes × Bytes)) → List Event → List (WTok Char)
  | _, [] => [.sep]
  | place, .text _ tm mv s :: l => (if place = some (tm, mv) then [] else [.sep]) ++ shownToks s ++ eventToks (some (tm, mv)) l
  | place, _ :: l => eventToks place l

/-- the words that are shown -/
def eventWords (l : List Event) : List (List Char) := wordsOf (eventToks none l)

/-- the characters that are shown, without the blanks -/
def eventChars (l : List Event) : List Char := l.flatMap fun
  | .text _ _ _ s => (s.map fun b => Char.ofNat b.toNat).filter fun c => !pyIsSpace c
  | _ => []

/-- the characters of an element of a paragraph -/
def itemChars : TItem → List (WTok Char)
  | .br => [.sep]
  | .skip => []
  | .text ws _ _ => ws.flatten.map charTok

/-- the words of a paragraph -/
def contentWordsOf (content : List TItem) : List (List Char) := wordsOf (content.flatMap itemChars)

/-- the characters of a paragraph, without the blanks -/
def contentChars (content : List TItem) : List Char := content.flatMap fun
  | .text ws _ _ => ws.flatten.filter fun c => !pyIsSpace c
  | _ => []

/-- where a string is shown, in points from the lower left corner of the page: nothing was transformed, and the text matrix only moves the text -/
def Event.origin : Event → Option (Rat × Rat)
  | .text gs [a, b, c, d, e, f] mv _ =>
    if gs.cms = [] ∧ [a, b, c, d] = [b!"1", b!"0", b!"0", b!"1"] then
      (numVal e).bind fun x => (numVal f).bind fun y => (numSum (mv.map Prod.fst)).bind fun dx => (numSum (mv.map Prod.snd)).map fun dy => (x + dx, y + dy)
    else none
  | _ => none

/-- a piece of a text: its page (the first one is 0), the top and the bottom of the place it takes there, in points from the bottom of the page,
and what is painted -/
structure TextShown where
  page : Nat
  top : Rat
  bottom : Rat
  evs : List Event

/-- pieces from the top to the bottom of a place, one directly below the other -/
def stacked : Rat → List TextShown → Rat → Prop
  | t, [], b => t = b
  | t, a :: l, b => a.top = t ∧ stacked a.bottom l b

example : eventWords [.text GS.initial [] [(b!"1", b!"2")] b!"ab ", .text GS.initial [] [(b!"1", b!"2")] b!"c",
    .text GS.initial [] [(b!"1", b!"3")] b!"d"] = [c!"ab", c!"c", c!"d"] := by decide

end Verif.Spec
