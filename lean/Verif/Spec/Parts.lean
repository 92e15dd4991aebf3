import Verif.Py
/-! # Specification: images and boxes on a page

From the documentation of `PDF.add_image`, and what a table or content box has to leave on a page. -/
namespace Verif.Spec

/-- the size `(W, H)` of an image of `iw × ih` pixels when the caller gave width `w` and height `h` (or not) and the content of
the page is `cw` wide: what is given is used, without both the image is as wide as the content, and what is not given follows
from the proportions of the image. -/
def ImageSize (cw : Rat) (iw ih : Nat) (w h : Option Rat) (W H : Rat) : Prop :=
  (∀ a, w = some a → W = a) ∧ (∀ b, h = some b → H = b) ∧ (w = none → h = none → W = cw) ∧
    (w = none ∨ h = none → W * ih = H * iw)

/-- the text of a paragraph on a page: its graphics and its text, each with the origin moved to `(x, y)` -/
def paragraphText (x y text graphics : Str) : Str :=
  (if graphics = [] then [] else c!" q 1 0 0 1 " ++ x ++ [' '] ++ y ++ c!" cm" ++ graphics ++ c!" Q") ++
    if text = [] then [] else c!" BT 1 0 0 1 " ++ x ++ [' '] ++ y ++ c!" Tm" ++ text ++ c!" ET"

end Verif.Spec
