import Verif.Model.Content
import Verif.Model.Footnotes
/-!
# Model of `pdfme/document.py`: a page with footnotes

Simplifications. Rectangles and what is drawn in them, as in Model/Content; `exec` also gets the context, whose numbers the marks show. `_process_footnotes` is a
function `notes` of the context and of the parts on the page: the elements of the list, if there are marks, and the new context; `pageNotes` is it, as in Model/Footnotes. The margins of the page are those of the document, so that the rectangle of the section ends at the lower margin (document.py:341-349), and the page is as
`add_page` has made it, at the upper left corner of that rectangle. Coordinates of the rule are not rounded. -/
namespace Verif

variable {σ P B C κ : Type}

/-- `get_state` before the run, or the state of a section that was not run yet, document.py:368-373, and `set_state` and `finished` after it, document.py:391-393 with
content.py:397-432 -/
def CContent.restored (s s1 : CContent σ P B C) : CContent σ P B C :=
  { s1 with
    finished := false
    box := s1.box.map fun f => { f with
      sectionIndex := (s.box.map (·.sectionIndex)).getD 0
      sectionDelayed := (s.box.map (·.sectionDelayed)).getD []
      childrenMemory := (s.box.map (·.childrenMemory)).getD [] } }

/-- the rule and the list on a page -/
structure FootList (P B C : Type) where
  /-- `x_line`, `x_line + 150` and `y_line`, document.py:402-406 -/
  ruleLeft : Rat
  ruleRight : Rat
  ruleY : Rat
  /-- `page._y`, document.py:399 -/
  top : Rat
  out : COut P B C
  height : Rat
  finished : Bool

/-- what is added to a page -/
structure FootPage (P B C : Type) where
  out : COut P B C
  list : Option (FootList P B C)

/-- `footnotes_margin`, document.py:198 -/
def footMargin : Rat := 10

/-- `_get_footnotes_obj`, document.py:439-462: the list, in the rectangle of the page -/
def footObj (exec : σ → Rat → Rat → Rat → Rat → Except PyErr (CellOut σ P B C)) (fuel : Nat) (l : List (CEl σ)) (x y w h : Rat) : CRun (CContent σ P B C) :=
  (CContent.new 1 none l).run exec fuel x y w h

/-- `_add_content`, document.py:362-408, with `_content`, pdf.py:841-856 -/
def addFooted (exec : κ → σ → Rat → Rat → Rat → Rat → Except PyErr (CellOut σ P B C)) (notes : κ → List (CPart P) → Except PyErr (Option (List (CEl σ)) × κ)) (fuel : Nat)
    (s : CContent σ P B C) (ctx : κ) (x y w h : Rat) : CRun (CContent σ P B C × κ × FootPage P B C) :=
  match s.run (exec ctx) fuel x y w h with
  | .error e => .error e
  | .ok s1 => match notes ctx s1.out.parts with
    | .error e => .error (some e)
    | .ok (none, ctx) => .ok (s1, ctx, ⟨s1.out, none⟩)
    | .ok (some l, ctx) => match footObj (exec ctx) fuel l x y w h with
      | .error e => .error e
      | .ok n1 =>
        if n1.currentHeight ≥ h - footMargin - 20 then .error (some .exception)
        else match (s.restored s1).run (exec ctx) fuel x y w (h - n1.currentHeight - footMargin) with
          | .error e => .error e
          | .ok s2 => match notes ctx s2.out.parts with
            | .error e => .error (some e)
            | .ok (none, ctx) => .ok (s2, ctx, ⟨s2.out, none⟩)
            | .ok (some l, ctx) => match footObj (exec ctx) fuel l x y w h with
              | .error e => .error e
              | .ok n2 =>
                let top := y - h + n1.currentHeight
                match n2.run (exec ctx) fuel x top w h with
                | .error e => .error e
                | .ok n3 => .ok (s2, ctx, ⟨s2.out, some ⟨x, x + 150, top + footMargin / 2, top, n3.out, n3.currentHeight, n3.finished⟩⟩)

/-- the pages of a section, document.py:315-360: each has its rectangle, and changes the context first (`turn`: the number of the page) -/
def footPages (exec : κ → σ → Rat → Rat → Rat → Rat → Except PyErr (CellOut σ P B C)) (notes : κ → List (CPart P) → Except PyErr (Option (List (CEl σ)) × κ)) (turn : κ → κ) (fuel : Nat) :
    List (Rat × Rat × Rat × Rat) → CContent σ P B C → κ → CRun (List ((Rat × Rat × Rat × Rat) × FootPage P B C))
  | [], _, _ => .ok []
  | (x, y, w, h) :: l, s, ctx => match addFooted exec notes fuel s (turn ctx) x y w h with
    | .error e => .error e
    | .ok (s, ctx, p) =>
      if s.finished then .ok [((x, y, w, h), p)]
      else match footPages exec notes turn fuel l s ctx with
        | .error e => .error e
        | .ok ps => .ok (((x, y, w, h), p) :: ps)

/-- the `type` and the `ids` of a part, document.py:435-437 -/
def CPart.note (ids : P → NPart) : CPart P → NPart
  | .leaf q => ids q
  | .image .. => .image

/-- `_process_footnotes`, document.py:464-476 with 410-437, on the parts of a box: `ids` are the ids of a part, and `el` makes an element of a footnote and its `list_text` -/
def pageNotes (total : Nat) (ids : P → NPart) (el : Str × Nat → CEl σ) (ctx : NCtx) (ps : List (CPart P)) : Except PyErr (Option (List (CEl σ)) × NCtx) :=
  match processNotes total (ps.map (CPart.note ids)) ctx with
  | .error e => .error e
  | .ok (l, ctx) => .ok (l.map (·.map el), ctx)

end Verif
