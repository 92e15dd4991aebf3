import Verif.Spec.FileText
import Verif.Spec.Words
import Verif.Spec.DocShown
/-! # Specification: words and images in a file -/
namespace Verif.Spec

/-- the names of the images that are painted -/
def eventImages : List Event → List Bytes := List.filterMap fun
  | .xobject _ n => some n
  | _ => none

/-- what is seen on a page: words, and images with the number of their object -/
inductive Seen
  | word (w : List Char)
  | image (id : Option Nat)
  deriving DecidableEq

/-- what is seen of a piece; `image` finds the objects of images -/
def eventSeen (image : Bytes → Option Nat) (l : List Event) : List Seen :=
  (eventWords l).map .word ++ (eventImages l).map fun n => .image (image n)

/-- a piece of a paragraph: where it is put, the rectangles of its ids, and its lines -/
structure TextPiece where
  x : Rat
  y : Rat
  ids : List (Str × List IdRect)
  lines : List (TLine × Bool)

/-- a piece: its page (the first one is 0) and what is painted -/
structure Painted where
  page : Nat
  evs : List Event
  mark : Option TextPiece := none

/-- the paragraphs among pieces -/
def runPlaces (runs : List Painted) : List Place := runs.filterMap fun r => r.mark.map fun m => ⟨r.page, m.x, m.y, m.ids⟩

end Verif.Spec
