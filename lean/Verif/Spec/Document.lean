import Verif.Model.Document
import Verif.Spec.Slice
import Verif.Spec.Roman
/-! Specification of the pages of a document: which settings a page has, where running sections are. -/
namespace Verif.Spec

/-- the `per_page` entry is for page `n` -/
def OnPage (d : PerPage) (n : Nat) : Prop := ∃ r ∈ d.pages, InRange r.start r.stop r.step n

/-- `v` is the setting `f` of page `n`: that of the last entry for the page that has one, and `own` if none has -/
def AtPage {α : Type} (n : Nat) (f : PerPage → Option α) (l : List PerPage) (own v : Option α) : Prop :=
  (∃ l1 d l2, l = l1 ++ d :: l2 ∧ OnPage d n ∧ f d = v ∧ v.isSome ∧ ∀ e ∈ l2, OnPage e n → f e = none) ∨
  ((∀ e ∈ l, OnPage e n → f e = none) ∧ v = own)

/-- width and height for a page size, those of the `PDF` if there is none -/
def SizeIs (own : PageSetup) : Option (SizeIn Rat) → Rat → Rat → Prop
  | none, w, h => w = own.width ∧ h = own.height
  | some z, w, h => getPageSize milli z = .ok [w, h]

/-- the margins for a margin setting, those of the `PDF` if there is none -/
def MarginIs (float : Str → Option Rat) (own : PageSetup) : Option (MarginIn Rat) → List (Str × Rat) → Prop
  | none, m => m = own.margin
  | some z, m => parseMargin float z = .ok m

/-- the page has this size, turned if `rotate`, and these margins; what is not set is as in the `PDF` -/
def HasLayout (float : Str → Option Rat) (own : PageSetup) (p : Page) (size : Option (SizeIn Rat)) (rotate : Option Bool)
    (margin : Option (MarginIn Rat)) : Prop :=
  ∃ w h m, SizeIs own size w h ∧ MarginIs float own margin m ∧
    (rotate.getD own.rotate = true → p.width = h ∧ p.height = w) ∧ (rotate.getD own.rotate = false → p.width = w ∧ p.height = h) ∧
    dget c!"top" m = some p.marginTop ∧ dget c!"bottom" m = some p.marginBottom ∧
    dget c!"left" m = some p.marginLeft ∧ dget c!"right" m = some p.marginRight

/-- a setting is made by every section (or by the document for it), or nowhere at all -/
def Settled {α : Type} (secs : List DocSec) (D : DocDefs) (f : SecStyle → Option α) (g : PageArgs → Option α) : Prop :=
  (∀ d ∈ secs, (f d.style <|> f D.style).isSome) ∨
  ((∀ d ∈ secs, f d.style = none) ∧ f D.style = none ∧ ∀ e ∈ D.perPage, e.style.bind g = none)

/-- what an entry says about a running section -/
def mentions (name : Str) (d : PerPage) : Option Bool :=
  match d.running with
  | none => none
  | some (ex, inc) => if name ∈ inc then some true else if name ∈ ex then some false else none

/-- documented width of a running section, document.py:47-51 -/
def docWidth (p : Page) : Meas → Option Rat
  | .num q => some q
  | .word s =>
    if s = c!"left" then some p.marginLeft
    else if s = c!"right" then some p.marginRight
    else if s = c!"full" then some p.width
    else none
  | _ => some (p.width - p.marginLeft - p.marginRight)

/-- documented height, document.py:52-56 -/
def docHeight (p : Page) : Meas → Option Rat
  | .num q => some q
  | .word s =>
    if s = c!"top" then some p.marginTop
    else if s = c!"bottom" then some p.marginBottom
    else if s = c!"full" then some p.height
    else none
  | _ => some (p.height - p.marginTop - p.marginBottom)

/-- documented `x`, from the left edge, document.py:57-59 -/
def docX (p : Page) : Meas → Option Rat
  | .num q => some q
  | .word s =>
    if s = c!"left" then some p.marginLeft
    else if s = c!"right" then some (p.width - p.marginRight)
    else none
  | _ => some 0

/-- documented `y`, from the top edge, document.py:60-63 -/
def docY (p : Page) : Meas → Option Rat
  | .num q => some q
  | .word s =>
    if s = c!"top" then some p.marginTop
    else if s = c!"bottom" then some (p.height - p.marginBottom)
    else none
  | _ => some 0

/-- the box is where the documentation puts the running section -/
def AsDocumented (p : Page) (s : RunSec) (b : PlacedBox) : Prop :=
  docWidth p s.width = some b.width ∧ docHeight p s.height = some b.height ∧
  docX p s.x = some b.x ∧ docY p s.y = some (p.height - b.y)

/-- the boxes are drawn one after the other, each with the cursor of the page at its upper left corner -/
inductive Drawn (draw : PlacedBox → Page → Except PyErr Page) : List PlacedBox → Page → Page → Prop
  | nil (p : Page) : Drawn draw [] p p
  | cons {b : PlacedBox} {l : List PlacedBox} {p q r : Page} :
      draw b { p with x := b.x, yUp := b.y } = .ok q → Drawn draw l q r → Drawn draw (b :: l) p r

/-- `number` is the text of the integer `v` -/
def Shows (roman : Bool) (number : Str) (v : Int) : Prop :=
  (roman = true → romanValue number = some v) ∧ (roman = false → number = intStr v)

/-- drawing leaves the size and the margins of a page alone -/
def SameSheet (p q : Page) : Prop :=
  q.width = p.width ∧ q.height = p.height ∧ q.marginTop = p.marginTop ∧ q.marginBottom = p.marginBottom ∧
  q.marginLeft = p.marginLeft ∧ q.marginRight = p.marginRight

end Verif.Spec
