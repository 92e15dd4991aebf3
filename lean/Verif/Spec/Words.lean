import Verif.Py
/-! # Specification: the words of a text made of pieces

A text is a sequence of pieces of type `W` and separators (blanks, line ends). A word is a maximal
sequence of pieces without a separator in between. -/
namespace Verif.Spec

/-- a piece or a separator -/
inductive WTok (W : Type)
  | word (w : W)
  | sep
  deriving DecidableEq

/-- complete words, and the pieces of the word being read -/
def wordStep {W : Type} (s : List (List W) × List W) : WTok W → List (List W) × List W
  | .word w => (s.1, s.2 ++ [w])
  | .sep => if s.2.isEmpty then s else (s.1 ++ [s.2], [])

/-- reading a sequence from the left -/
def wordState {W : Type} (l : List (WTok W)) : List (List W) × List W := l.foldl wordStep ([], [])

/-- the words of a sequence -/
def wordsOf {W : Type} (l : List (WTok W)) : List (List W) := (wordState (l ++ [.sep])).1

example : wordsOf [.sep, .word 'a', .word 'b', .sep, .sep, WTok.word 'c'] = [['a', 'b'], ['c']] := by decide

end Verif.Spec
