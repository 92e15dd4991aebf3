import Verif.Spec.TextWords
import Mathlib.Algebra.Order.Ring.Rat
/-!
# Words inside of a width

The words of a line are shown one after the other. A line that is more than a single word should not go beyond the ends of the width it has. -/
namespace Verif.Spec

/-- the words of a line with the parts they are in, blanks too -/
def lineWords (l : TLine) : List (TPart × Str) := l.parts.flatMap fun p => p.words.map fun w => (p, w)

/-- as wide as the font says -/
def wordNatural (M : Metrics) (q : TPart × Str) : Rat := q.1.look.st.size * (q.2.map (M q.1.look.st.family q.1.look.st.mode)).sum

/-- as wide as it is shown: the word spacing `tw` is added to every blank, but not with codes of two bytes -/
def wordShown (M : Metrics) (tw : TPart → Rat) (q : TPart × Str) : Rat :=
  wordNatural M q + if q.1.look.enc = none then (q.2.count ' ' : Rat) * tw q.1 else 0

/-- words one after the other from `x` on, each with where it begins -/
def placedWords {α : Type} (width : α → Rat) : Rat → List α → List (α × Rat)
  | _, [] => []
  | x, q :: l => (q, x) :: placedWords width (x + width q) l

/-- something of the word can be seen -/
def seenWord (w : Str) : Bool := w.any fun c => !pyIsSpace c

/-- the line is a single word, maybe in several pieces -/
def oneWord (l : TLine) : Prop := (wordsOf ((lineWords l).map fun q => if strIsSpace q.2 then WTok.sep else .word q)).length ≤ 1

/-- the width of the blanks of a line, and of those at its end -/
def blankWidth (M : Metrics) (l : TLine) : Rat := (((lineWords l).filter fun q => strIsSpace q.2).map (wordNatural M)).sum

def endBlankWidth (M : Metrics) (l : TLine) : Rat := (((lineWords l).reverse.takeWhile fun q => strIsSpace q.2).map (wordNatural M)).sum

/-- how far a line may go beyond the left end: blanks at the end of the line move right aligned and centred text -/
def leftOver (M : Metrics) (align : Str) (l : TLine) : Rat :=
  if align = c!"r" then endBlankWidth M l else if align = c!"c" then endBlankWidth M l / 2 else 0

/-- how far a line may go beyond the right end: in the last line of a justified paragraph blanks do not shrink, though 70 % of them had to fit -/
def rightOver (M : Metrics) (align : Str) (last : Bool) (l : TLine) : Rat := if align = c!"j" ∧ last = true then 3 / 10 * blankWidth M l else 0

/-- the words of lines that begin at `X j`, with the word spacings `tw j`, are between `lo` and `hi`, up to errors `e`; lines that are a single word may be wider -/
def WordsWithin (M : Metrics) (align : Str) (e : Nat → TLine → Rat) (lo hi : Rat) (X : Nat → Rat) (tw : Nat → TPart → Rat) (lines : List (TLine × Bool)) : Prop :=
  ∀ j l, lines[j]? = some l → (∀ p ∈ l.1.parts, 0 ≤ p.look.st.size) → oneWord l.1 ∨
    ∀ q ∈ placedWords (wordShown M (tw j)) (X j) (lineWords l.1), seenWord q.1.2 = true →
      lo - leftOver M align l.1 - e j l.1 ≤ q.2 ∧ q.2 + wordShown M (tw j) q.1 ≤ hi + rightOver M align l.2 l.1 + e j l.1

end Verif.Spec
