import Verif.Model.Page
import Verif.Model.Range
import Verif.Model.Roman
/-! Model of `pdfme/document.py` and of the parts of `pdfme/pdf.py` it uses for its pages: page layout, page numbers, running
sections and footnotes.

Simplifications. The contents of a section are a state of any type, with a function that adds them to a page. The order in which Python walks through a
set of strings is not determined; here it is a function `order`. The style of a section is what `process_style` returns. A size or position of a running section that is
a string without meaning is a `TypeError` at once; in the code it is one when it is used. A style entry that is `None` is one that is missing. -/
namespace Verif

/-! ### Running sections -/

/-- the value of `width`, `height`, `x` or `y` in a running section -/
inductive Meas where
  | missing
  | none
  | num (q : Rat)
  | word (s : Str)
  deriving DecidableEq

/-- an entry of `running_sections` of a document -/
structure RunSec where
  width : Meas
  height : Meas
  x : Meas
  y : Meas

/-- the arguments of `add_running_section` -/
structure RunBox where
  name : Str
  width : Option Rat
  height : Option Rat
  x : Option Rat
  y : Option Rat
  deriving DecidableEq

/-- `margin[side]` -/
def side (margin : List (Str × Rat)) (s : Str) : Except PyErr Rat :=
  match dget s margin with
  | some q => .ok q
  | none => .error .keyError

/-- `width` in `_set_running_sections`, document.py:257-260 and 274-276 -/
def runWidth (pw : Rat) (m : List (Str × Rat)) : Meas → Except PyErr (Option Rat)
  | .missing => do
    let r ← side m c!"right"
    let l ← side m c!"left"
    pure (some (pw - r - l))
  | .none => .ok none
  | .num q => .ok (some q)
  | .word s =>
    if s = c!"left" ∨ s = c!"right" then do
      let q ← side m s
      pure (some q)
    else if s = c!"full" then .ok (some pw)
    else .error .typeError

/-- `height`, document.py:261-264 and 277-279 -/
def runHeight (ph : Rat) (m : List (Str × Rat)) : Meas → Except PyErr (Option Rat)
  | .missing => do
    let t ← side m c!"top"
    let b ← side m c!"bottom"
    pure (some (ph - t - b))
  | .none => .ok none
  | .num q => .ok (some q)
  | .word s =>
    if s = c!"top" ∨ s = c!"bottom" then do
      let q ← side m s
      pure (some q)
    else if s = c!"full" then .ok (some ph)
    else .error .typeError

/-- `x`, document.py:265-268 and 280 -/
def runX (pw : Rat) (m : List (Str × Rat)) : Meas → Except PyErr (Option Rat)
  | .missing => .ok (some 0)
  | .none => .ok none
  | .num q => .ok (some q)
  | .word s =>
    if s = c!"left" then do
      let q ← side m s
      pure (some q)
    else if s = c!"right" then do
      let q ← side m s
      pure (some (pw - q))
    else .error .typeError

/-- `y`, document.py:269-272 and 281 -/
def runY (ph : Rat) (m : List (Str × Rat)) : Meas → Except PyErr (Option Rat)
  | .missing => .ok (some 0)
  | .none => .ok none
  | .num q => .ok (some q)
  | .word s =>
    if s = c!"top" then do
      let q ← side m s
      pure (some q)
    else if s = c!"bottom" then do
      let q ← side m s
      pure (some (ph - q))
    else .error .typeError

/-- the loop body of `_set_running_sections`, document.py:254-282 -/
def runBox (secs : List (Str × RunSec)) (pw ph : Rat) (m : List (Str × Rat)) (name : Str) : Except PyErr RunBox :=
  match dget name secs with
  | none => .error .keyError
  | some s => do
    let w ← runWidth pw m s.width
    let h ← runHeight ph m s.height
    let x ← runX pw m s.x
    let y ← runY ph m s.y
    pure ⟨name, w, h, x, y⟩

/-- `_set_running_sections`, document.py:243-282 -/
def setRunning (secs : List (Str × RunSec)) (pw ph : Rat) (m : List (Str × Rat)) : List Str → Except PyErr (List RunBox)
  | [] => .ok []
  | n :: l => match runBox secs pw ph m n with
    | .error e => .error e
    | .ok b => match setRunning secs pw ph m l with
      | .error e => .error e
      | .ok bs => .ok (b :: bs)

/-- a content box on a page: `x`, `y` of its upper left corner from the lower left corner of the page, width and height -/
structure PlacedBox where
  name : Str
  x : Rat
  y : Rat
  width : Rat
  height : Rat
  deriving DecidableEq

/-- `_position_and_size`, pdf.py:515-541 -/
def Page.posSize (p : Page) (b : RunBox) : Page × PlacedBox :=
  let p := match b.x with
    | some x => { p with x := x }
    | none => p
  let p := match b.y with
    | some y => p.setY y
    | none => p
  (p, ⟨b.name, p.x, p.yUp, b.width.getD (p.width - p.marginRight - p.x), b.height.getD (p.height - p.marginBottom - p.y)⟩)

/-- the loop over the running sections, pdf.py:278-279: `draw` is what `_content` does on the page, pdf.py:841-858 -/
def runAll (draw : PlacedBox → Page → Except PyErr Page) : List RunBox → Page → Except PyErr (List PlacedBox × Page)
  | [], p => .ok ([], p)
  | b :: l, p => match draw (p.posSize b).2 (p.posSize b).1 with
    | .error e => .error e
    | .ok q => match runAll draw l q with
      | .error e => .error e
      | .ok (bs, r) => .ok ((p.posSize b).2 :: bs, r)

/-! ### Page numbers -/

/-- `get_page_number`, pdf.py:543-553 -/
def pageNumber (roman : Bool) (offset : Int) (index : Nat) : Except PyErr Str :=
  if roman then toRoman (index + 1 + offset) else .ok (intStr (index + 1 + offset))

/-! ### Sections -/

/-- the page entries of a style, document.py:11-12 and 299-304 -/
structure SecStyle where
  size : Option (SizeIn Rat)
  rotate : Option Bool
  margin : Option (MarginIn Rat)
  offset : Option Int
  /-- `page_numbering_style == 'roman'` -/
  roman : Option Bool
  reset : Option Bool

/-- `style.update(other)` -/
def SecStyle.update (s t : SecStyle) : SecStyle where
  size := t.size <|> s.size
  rotate := t.rotate <|> s.rotate
  margin := t.margin <|> s.margin
  offset := t.offset <|> s.offset
  roman := t.roman <|> s.roman
  reset := t.reset <|> s.reset

/-- `page_args.update(…)`, document.py:325-330 -/
def PageArgs.update (s t : PageArgs) : PageArgs := ⟨t.size <|> s.size, t.rotate <|> s.rotate, t.margin <|> s.margin⟩

/-- an entry of `per_page` -/
structure PerPage where
  pages : List PyRange
  style : Option PageArgs
  /-- `exclude` and `include` -/
  running : Option (List Str × List Str)

/-- a section -/
structure DocSec where
  style : SecStyle
  running : List Str

/-- a page with its number and running sections; `sec` is the number of its section (not in the code) -/
structure DPage where
  page : Page
  number : Str
  placed : List PlacedBox
  sec : Nat

/-- the parts of a document that do not change -/
structure DocDefs where
  style : SecStyle
  secs : List (Str × RunSec)
  perPage : List PerPage

/-- the parts that change; `κ` is everything else -/
structure DocSt (κ : Type) where
  setup : PageSetup
  offset : Int
  roman : Bool
  pages : List DPage
  rest : κ

/-- what the model is given: number parsing, object ids, the order of sets, and what contents do -/
structure DocEnv (κ : Type) where
  float : Str → Option Rat
  newId : κ → Nat
  order : List Str → List Str
  draw : PlacedBox → Page → Except PyErr Page
  /-- `section.setup` and `_add_content`, document.py:349 and 362-408, and whether the section is finished -/
  add : κ → Page → Except PyErr (κ × Page × Bool)
  /-- `_create_content`, document.py:308-310 -/
  start : κ → Nat → κ

/-- `s.update(l)` of a set without repetitions; `set(l)` when `s` is empty -/
def setUpdate (s l : List Str) : List Str := l.foldl (fun s x => if x ∈ s then s else s ++ [x]) s

/-- the arguments of the page after an entry, document.py:325-330 -/
def PerPage.args (d : PerPage) (a : PageArgs) : PageArgs :=
  match d.style with
  | some t => a.update t
  | none => a

/-- the running sections after an entry, document.py:331-336 -/
def PerPage.names (d : PerPage) (s : List Str) : List Str :=
  match d.running with
  | some (ex, inc) => setUpdate (s.filter (· ∉ ex)) inc
  | none => s

/-- the loop over `per_page`, document.py:323-336: the arguments of the page and its running sections -/
def perPageArgs (n : Nat) : List PerPage → PageArgs × List Str → PageArgs × List Str
  | [], r => r
  | d :: l, (a, s) => if multiContains d.pages n then perPageArgs n l (d.args a, d.names s) else perPageArgs n l (a, s)

/-- the size of the page, document.py:340-342 -/
def PageSetup.size (s : PageSetup) : Rat × Rat := if s.rotate then (s.height, s.width) else (s.width, s.height)

/-- `self.x`, `self.width`, `self.y` and `self.height`, document.py:344-347, need all four margins -/
def needSides (m : List (Str × Rat)) : Except PyErr Unit := do
  let _ ← side m c!"left"
  let _ ← side m c!"right"
  let _ ← side m c!"top"
  let _ ← side m c!"bottom"
  pure ()

variable {κ : Type}

/-- the loop body of `_process_section`, document.py:317-360, with `add_page`, pdf.py:243-281: the state and whether the section is finished -/
def docPage (E : DocEnv κ) (D : DocDefs) (sec : Nat) (style : SecStyle) (running : List Str) (s : DocSt κ) : Except PyErr (DocSt κ × Bool) :=
  let n := s.pages.length
  let r := perPageArgs n D.perPage (⟨style.size, style.rotate, style.margin⟩, setUpdate [] running)
  match s.setup.setup E.float r.1 with
  | .error e => .error e
  | .ok setup => match needSides setup.margin with
    | .error e => .error e
    | .ok _ => match setRunning D.secs setup.size.1 setup.size.2 setup.margin (E.order r.2) with
      | .error e => .error e
      | .ok boxes => match Page.ofMargins (E.newId s.rest) setup.size.1 setup.size.2 setup.margin with
        | .error e => .error e
        | .ok p => match pageNumber s.roman s.offset n with
          | .error e => .error e
          | .ok number => match runAll E.draw boxes p with
            | .error e => .error e
            | .ok (placed, p) => match E.add s.rest p.goToBeginning with
              | .error e => .error e
              | .ok (rest, p, fin) => .ok ({ s with setup := setup, pages := s.pages ++ [⟨p, number, placed, sec⟩], rest := rest }, fin)

/-- the loop of `_process_section`, document.py:316-360 -/
def docPages (E : DocEnv κ) (D : DocDefs) (sec : Nat) (style : SecStyle) (running : List Str) : Nat → DocSt κ → Except (Option PyErr) (DocSt κ)
  | 0, _ => .error none
  | fuel + 1, s => match docPage E D sec style running s with
    | .error e => .error (some e)
    | .ok (s, true) => .ok s
    | .ok (s, false) => docPages E D sec style running fuel s

/-- `_process_section`, document.py:290-360 -/
def docSection (E : DocEnv κ) (D : DocDefs) (fuel sec : Nat) (d : DocSec) (s : DocSt κ) : Except (Option PyErr) (DocSt κ) :=
  let style := D.style.update d.style
  let offset := style.offset.getD s.offset
  let offset := if style.reset.getD false then -(s.pages.length : Int) else offset
  docPages E D sec style d.running fuel { s with offset := offset, roman := style.roman.getD s.roman, rest := E.start s.rest sec }

/-- `run`, document.py:284-288 -/
def docRun (E : DocEnv κ) (D : DocDefs) (fuel : Nat) : Nat → List DocSec → DocSt κ → Except (Option PyErr) (DocSt κ)
  | _, [], s => .ok s
  | sec, d :: l, s => match docSection E D fuel sec d s with
    | .error e => .error e
    | .ok s => docRun E D fuel (sec + 1) l s

end Verif
