import Verif.Model.TableRun
/-!
# Model of `pdfme/content.py`: content boxes

A content box with its columns, nested boxes, groups and images, one rectangle at a time.

Simplifications. A paragraph or table is a state `σ` with a function `exec`, as for the cells of a table (Model/TableRun). Its state is
a value: a run from a saved state is the same as the run it was saved in (properties C24, C30 and C76 are about this; C76 has where it is not so). The style of an element is
what `get_element_styles` (content.py:1075-1084) makes of it and of its ancestors: it depends on nothing else. An image is the size of the
picture, whose height is not 0, and a name. The loops of the code may not end, so the functions have a number of steps left; `.error none` means that it was used up. The
parent of a box and its parent's parents are the tail of a list of boxes. The attributes `x`, `width` and `max_height` are
always set just before they are read; here they are computed there. -/
namespace Verif

inductive ImgPlace where
  | normal
  | flow
  | other
  deriving DecidableEq

/-- the entries of a style dict that are read here -/
structure CStyle where
  top : Rat
  bottom : Rat
  left : Rat
  right : Rat
  /-- `style.get('min_height', float('inf'))` -/
  minHeight : Option Rat
  shrink : Bool
  place : ImgPlace
  deriving DecidableEq

/-- an image element -/
structure CImg where
  name : Nat
  width : Rat
  height : Rat
  tries : Nat
  style : CStyle
  deriving DecidableEq

/-- an element of a group: a paragraph or table, or an image -/
inductive GEl (σ : Type) where
  | leaf (c : σ) (st : CStyle)
  | image (i : CImg)
  deriving DecidableEq

/-- an element of a content box -/
inductive CEl (σ : Type) where
  | leaf (c : σ) (st : CStyle)
  | image (i : CImg)
  | group (l : List (GEl σ)) (tries : Nat) (st : CStyle)
  | child (cols : Nat) (gap : Option Rat) (els : List (CEl σ)) (st : CStyle)

/-- what is added to `parts` -/
inductive CPart (P : Type) where
  | leaf (p : P)
  | image (name : Nat) (x y width height : Rat)
  deriving DecidableEq

/-- `parts`, `lines` and `fills` of the `PDFContent` -/
structure COut (P B C : Type) where
  parts : List (CPart P)
  lines : List (BLine B)
  fills : List (TFill C)
  deriving DecidableEq

/-- an entry of `children_memory`, content.py:709-712 -/
structure CMem (σ : Type) where
  index : Nat
  delayed : List (CEl σ)

/-- the attributes of a `PDFContentPart` -/
structure CBox (σ : Type) where
  elements : List (CEl σ)
  cols : Nat
  gapOpt : Option Rat
  last : Bool
  sectionIndex : Nat
  sectionDelayed : List (CEl σ)
  childrenMemory : List (CMem σ)
  partialMemory : Option (List (CMem σ))
  minX : Rat
  minY : Rat
  maxY : Rat
  colsGap : Rat
  colWidth : Rat
  y : Rat
  column : Nat
  starting : Bool
  lastBottom : Rat
  index : Nat
  delayed : List (CEl σ)
  willReset : Bool
  resetting : Bool
  partsIndex : Nat
  diffLast : Option Rat
  diff : Option Rat
  forward : Bool

/-- the result of a function whose loops may not end -/
abbrev CRun (α : Type) := Except (Option PyErr) α

variable {σ P B C : Type}

/-- `go_to_beginning`, content.py:672-679 -/
def CBox.toBeginning (f : CBox σ) : CBox σ := { f with y := f.minY, column := 0, starting := true }

/-- `setup`, content.py:361-395 -/
def CBox.setup (f : CBox σ) (minX width minY maxY : Rat) (parts : Nat) : CBox σ :=
  let gap := f.gapOpt.getD (max (width / 25) 7)
  { f with
    minX := minX
    minY := minY
    y := minY
    column := 0
    starting := true
    maxY := maxY
    lastBottom := 0
    colsGap := gap
    colWidth := (width - gap * ((f.cols : Rat) - 1)) / f.cols
    index := f.sectionIndex
    delayed := f.sectionDelayed
    willReset := false
    resetting := false
    partsIndex := parts
    diffLast := none
    diff := none
    forward := false }

/-- `__init__`, content.py:325-359, without the `setup` at its end -/
def CBox.blank (cols : Nat) (gap : Option Rat) (els : List (CEl σ)) (last : Bool) : CBox σ where
  elements := els
  cols := cols
  gapOpt := gap
  last := last
  sectionIndex := 0
  sectionDelayed := []
  childrenMemory := []
  partialMemory := none
  minX := 0
  minY := 0
  maxY := 0
  colsGap := 0
  colWidth := 0
  y := 0
  column := 0
  starting := true
  lastBottom := 0
  index := 0
  delayed := []
  willReset := false
  resetting := false
  partsIndex := 0
  diffLast := none
  diff := none
  forward := false

/-- `get_min_x`, content.py:744-751 -/
def CBox.colX (f : CBox σ) : Rat := f.minX + f.column * (f.colWidth + f.colsGap)

/-- `self.x` and `self.width` of `update_dimensions`, content.py:761-764 -/
def CBox.elX (f : CBox σ) (st : CStyle) : Rat := f.colX + st.left

def CBox.elWidth (f : CBox σ) (st : CStyle) : Rat := f.colWidth - st.left - st.right

/-- `self.max_height`, content.py:769 -/
def CBox.room (f : CBox σ) : Rat := max 0 (f.y - f.maxY)

/-- the start of each `process_…`: the top margin, content.py:844-845, and `update_dimensions`, content.py:766-767 -/
def CBox.descend (f : CBox σ) (st : CStyle) (topMargin : Bool) : CBox σ :=
  if f.starting then f else { f with y := f.y - (if topMargin then st.top else 0) - f.lastBottom }

/-- the end of each `process_…`, content.py:874-879: `y0` is `initial_y` -/
def CBox.took (f : CBox σ) (y0 height : Rat) (st : CStyle) : CBox σ :=
  if height > 0 then { f with y := f.y - height, starting := false, lastBottom := st.bottom } else { f with y := y0 }

/-- the dict returned by `process` -/
structure CAns (σ : Type) where
  delayed : Option (CEl σ)
  next : Bool
  flow : Bool

/-- what `exec` adds -/
def COut.add (w : COut P B C) (o : CellOut σ P B C) : COut P B C :=
  ⟨w.parts ++ o.parts.map .leaf, w.lines ++ o.lines, w.fills ++ o.fills⟩

/-- `process_text`, content.py:827-885, and `process_table`, content.py:955-1013 -/
def CBox.leaf (exec : σ → Rat → Rat → Rat → Rat → Except PyErr (CellOut σ P B C)) (f : CBox σ) (w : COut P B C) (c : σ) (st : CStyle)
    (addParts topMargin : Bool) : Except PyErr (Option σ × CBox σ × COut P B C) :=
  let f1 := f.descend st topMargin
  match exec c (f1.elX st) f1.y (f1.elWidth st) f1.room with
  | .error e => .error e
  | .ok o => .ok (if o.finished then none else some o.next, f1.took f.y o.height st, if addParts then w.add o else w)

/-- where `process_image` puts an image, content.py:912-929: `x`, width and height -/
def CImg.fit (i : CImg) (x width room : Rat) : Option (Rat × Rat × Rat) :=
  let height := width * i.height / i.width
  if height < room then some (x, width, height)
  else match i.style.minHeight with
    | none => none
    | some m =>
      if m ≤ room then
        let height := if i.style.shrink then m else room
        let width' := height * i.width / i.height
        some (x + (width - width') / 2, width', height)
      else none

/-- `process_image`, content.py:887-953; the image comes back if it was not placed -/
def CBox.image (f : CBox σ) (w : COut P B C) (i : CImg) (addParts topMargin : Bool) : Except PyErr (Option CImg × CBox σ × COut P B C) :=
  let f1 := f.descend i.style topMargin
  if i.width = 0 then .error .zeroDivision
  else match i.fit (f1.elX i.style) (f1.elWidth i.style) f1.room with
    | some (x, width, height) =>
      let f2 := { f1 with y := f1.y - height, starting := false, lastBottom := i.style.bottom }
      .ok (none, f2, if addParts then { w with parts := w.parts ++ [.image i.name x f2.y width height] } else w)
    | none =>
      if i.tries ≥ 50 then .error .exception
      else .ok (some { i with tries := i.tries + 1 }, { f1 with y := f.y }, w)

/-- `process_group_element`, content.py:1086-1113: whether it was placed completely, and the element with its tries -/
def CBox.groupEl (exec : σ → Rat → Rat → Rat → Rat → Except PyErr (CellOut σ P B C)) (f : CBox σ) (w : COut P B C) (e : GEl σ)
    (add topMargin : Bool) (minHeight : Option Rat) : Except PyErr (Bool × GEl σ × CBox σ × COut P B C) :=
  match e with
  | .leaf c st => match f.leaf exec w c st add topMargin with
    | .error e => .error e
    | .ok (r, f, w) => .ok (r.isNone, .leaf c st, f, w)
  | .image i =>
    let st := { i.style with minHeight := minHeight <|> i.style.minHeight, shrink := true }
    match f.image w { i with style := st } add topMargin with
    | .error e => .error e
    | .ok (none, f, w) => .ok (true, .image i, f, w)
    | .ok (some i', f, w) => .ok (false, .image { i with tries := i'.tries }, f, w)

/-- the first loop of `process_group`, content.py:1136-1155: `none` if all the elements found room -/
def CBox.groupTry (exec : σ → Rat → Rat → Rat → Rat → Except PyErr (CellOut σ P B C)) (w : COut P B C) :
    Bool → List (GEl σ) → CBox σ → Except PyErr (Bool × List (GEl σ) × CBox σ)
  | _, [], f => .ok (true, [], f)
  | topMargin, e :: l, f => match f.groupEl exec w e false topMargin none with
    | .error e => .error e
    | .ok (false, e, f, _) => .ok (false, e :: l, f)
    | .ok (true, e, f, _) => match CBox.groupTry exec w true l f with
      | .error e => .error e
      | .ok (b, l, f) => .ok (b, e :: l, f)

/-- the heights in `images`, content.py:1137-1142 -/
def GEl.minHeight : GEl σ → Option Rat
  | .leaf _ _ => none
  | .image i => i.style.minHeight

/-- the second loop of `process_group`, content.py:1161-1169: what the elements answer is not looked at -/
def CBox.groupPut (exec : σ → Rat → Rat → Rat → Rat → Except PyErr (CellOut σ P B C)) (ratio : Rat) :
    Bool → List (GEl σ) → CBox σ → COut P B C → Except PyErr (List (GEl σ) × CBox σ × COut P B C)
  | _, [], f, w => .ok ([], f, w)
  | topMargin, e :: l, f, w => match f.groupEl exec w e true topMargin (e.minHeight.map (· * ratio)) with
    | .error e => .error e
    | .ok (_, e, f, w) => match CBox.groupPut exec ratio true l f w with
      | .error e => .error e
      | .ok (l, f, w) => .ok (e :: l, f, w)

/-- `process_group`, content.py:1115-1171: whether it was placed, and the group with its tries -/
def CBox.group (exec : σ → Rat → Rat → Rat → Rat → Except PyErr (CellOut σ P B C)) (f : CBox σ) (w : COut P B C) (l : List (GEl σ)) (tries : Nat)
    (st : CStyle) : Except PyErr (Bool × List (GEl σ) × Nat × CBox σ × COut P B C) :=
  match CBox.groupTry exec w false l (if f.starting then f else { f with y := f.y - st.top }) with
  | .error e => .error e
  | .ok (false, l, f1) => if tries ≥ 50 then .error .exception else .ok (false, l, tries + 1, { f1 with y := f.y }, w)
  | .ok (true, l, f1) =>
    let sizes := l.filterMap (·.minHeight)
    if sizes ≠ [] ∧ sizes.sum = 0 then .error .zeroDivision
    else
      let ratio := if sizes = [] ∨ st.shrink then 1 else (sizes.sum + f1.y - f1.maxY) / sizes.sum
      match CBox.groupPut exec ratio false l { f1 with y := f.y } w with
      | .error e => .error e
      | .ok (l, f2, w) => .ok (true, l, tries, f2, w)

/-- `process`, content.py:796-825, for an element that is not a content box: what it answers, and the element with its tries -/
def CBox.process (exec : σ → Rat → Rat → Rat → Rat → Except PyErr (CellOut σ P B C)) (f : CBox σ) (w : COut P B C) (e : CEl σ) :
    Except PyErr (CAns σ × CEl σ × CBox σ × COut P B C) :=
  match e with
  | .leaf c st => match f.leaf exec w c st true true with
    | .error e => .error e
    | .ok (none, f, w) => .ok (⟨none, false, false⟩, e, f, w)
    | .ok (some c', f, w) => .ok (⟨some (.leaf c' st), true, false⟩, e, f, w)
  | .image i => match f.image w i true true with
    | .error e => .error e
    | .ok (none, f, w) => .ok (⟨none, false, false⟩, e, f, w)
    | .ok (some i, f, w) => .ok (⟨some (.image i), i.style.place = .normal, i.style.place = .flow⟩, .image i, f, w)
  | .group l t st => match f.group exec w l t st with
    | .error e => .error e
    | .ok (true, l, t, f, w) => .ok (⟨none, false, false⟩, .group l t st, f, w)
    | .ok (false, l, t, f, w) => .ok (⟨some (.group l t st), false, true⟩, .group l t st, f, w)
  | .child .. => .error .exception

/-- the answers of the loops, content.py:505-519, and what `process_add_ans` makes of them -/
inductive CAct where
  | interrupt
  | brk
  | partialNext
  | next
  | cont
  | retry
  deriving DecidableEq

/-- an exception of the code -/
def lift {α : Type} : Except PyErr α → CRun α
  | .ok a => .ok a
  | .error e => .error (some e)

/-- `l[n] = d` or `l.pop(n)`, content.py:452-455 -/
def replaceAt {α : Type} (l : List α) (n : Nat) : Option α → List α
  | some d => l.set n d
  | none => l.eraseIdx n

/-- `add_delayed`, content.py:434-469. No content box is ever delayed (content.py:1073). -/
def CBox.addDelayed (exec : σ → Rat → Rat → Rat → Rat → Except PyErr (CellOut σ P B C)) :
    Nat → Nat → CBox σ → COut P B C → CRun (CAct × CBox σ × COut P B C)
  | 0, _, _, _ => .error none
  | fuel + 1, n, f, w => match f.delayed[n]? with
    | none => .ok (if f.delayed ≠ [] ∧ f.elements.length ≤ f.index + 1 then .next else .cont, f, w)
    | some e => match f.process exec w e with
      | .error e => .error (some e)
      | .ok (a, _, f, w) =>
        let f := { f with delayed := replaceAt f.delayed n a.delayed }
        if a.next then .ok (.next, f, w) else CBox.addDelayed exec fuel (if a.flow then n + 1 else n) f w

/-- the answer of `next_section` -/
inductive CSec where
  | interrupt
  | brk
  | partialNext
  | retry
  | pos (minX minY : Rat)

/-- `next_section`, content.py:681-742, for a box and its ancestors; `parts` is `len(self.p.parts)` -/
def nextSection (parts : Nat) : Option (List (CMem σ)) → List (CBox σ) → CSec × List (CBox σ)
  | _, [] => (.interrupt, [])
  | mem, f :: anc =>
    if f.column + 1 = f.cols then
      if f.resetting then (.brk, { f with forward := true } :: anc)
      else
        let f := { f with sectionIndex := f.index, sectionDelayed := f.delayed, childrenMemory := mem.getD [] }
        match anc with
        | [] => (.interrupt, [f])
        | _ => match nextSection parts (some (mem.getD [] ++ [⟨f.index, f.delayed⟩])) anc with
          | (.pos x y, anc) =>
            let f := { f with minY := y, minX := x, partsIndex := parts }.toBeginning
            (if mem.isNone then .retry else .pos x y, f :: anc)
          | (r, anc) => (r, f :: anc)
    else
      let f := { f with column := f.column + 1, starting := true, y := f.minY }
      if f.delayed ≠ [] ∧ mem.isSome then (.partialNext, { f with partialMemory := mem } :: anc)
      else (if mem.isNone then .retry else .pos f.colX f.minY, f :: anc)

/-- the first condition of `reset`, content.py:644 -/
def CBox.fine (f : CBox σ) : Bool :=
  match f.diffLast with
  | none => false
  | some l => l ≠ 0 && decide (l - f.diff.getD 0 < 1)

/-- `reset`, content.py:635-670, and whether it goes on -/
def CBox.reset (f : CBox σ) (w : COut P B C) : Bool × CBox σ × COut P B C :=
  if f.fine ∧ ¬ f.forward then (false, f, w)
  else
    let d := if f.fine then f.diff.getD 0 * 2 else f.diff.getD 0
    let f1 := { f.toBeginning with willReset := false, resetting := true, index := f.sectionIndex, delayed := f.sectionDelayed }
    let f2 := match f.diff with
      | none => { f1 with diff := some ((f.minY - f.maxY) / 2), maxY := f.maxY + (f.minY - f.maxY) / 2 }
      | some _ => { f1 with diffLast := some d, diff := some (d / 2), maxY := if f.forward then f.maxY - d / 2 else f.maxY + d / 2 }
    (true, f2, { w with parts := w.parts.take f.partsIndex })

/-- `is_element_resetting`, content.py:521-533 -/
def breakAct (f : CBox σ) (anc : List (CBox σ)) (w : COut P B C) : CAct × List (CBox σ) × COut P B C :=
  if f.willReset ∨ f.resetting then
    let r := f.reset w
    (if r.1 then .retry else .cont, r.2.1 :: anc, r.2.2)
  else (.brk, f :: anc, w)

/-- `process_add_ans`, content.py:535-561 (`continue` has no answer, content.py:547-561) -/
def answerAct (a : CAct) (stk : List (CBox σ)) (w : COut P B C) : CAct × List (CBox σ) × COut P B C :=
  match stk with
  | [] => (.interrupt, [], w)
  | f :: anc => match a with
    | .partialNext => (if f.partialMemory.isNone then .partialNext else .retry, stk, w)
    | .brk => breakAct f anc w
    | .next => match nextSection w.parts.length none stk with
      | (.brk, f :: anc) => breakAct f anc w
      | (.interrupt, stk) => (.interrupt, stk, w)
      | (.partialNext, stk) => (.partialNext, stk, w)
      | (_, stk) => (.retry, stk, w)
    | a => (a, stk, w)

/-- `last_child_of_resetting`, content.py:604-621 (the attribute `mimim_forward` set there is never read) -/
def lastOfResetting : List (CBox σ) → Bool
  | f :: p :: anc => f.last && (p.resetting || lastOfResetting (p :: anc))
  | _ => false

/-- `start_resetting`, content.py:623-633 -/
def startResetting : List (CBox σ) → List (CBox σ)
  | [] => []
  | f :: [] => [{ f with willReset := true }]
  | f :: p :: anc => if f.last ∧ p.cols > 1 then f :: startResetting (p :: anc) else { f with willReset := true } :: p :: anc

/-- the start of `process_child`, content.py:1029-1056: the box afterwards and the new child -/
def CBox.newChild (f : CBox σ) (cols : Nat) (gap : Option Rat) (els : List (CEl σ)) (st : CStyle) (last : Bool) (parts : Nat) : CBox σ × CBox σ :=
  let f := f.descend st true
  let c := (CBox.blank cols gap els last).setup f.colX f.colWidth f.y f.maxY parts
  let restore := fun (m : CMem σ) (rest : List (CMem σ)) =>
    { c with sectionIndex := m.index, sectionDelayed := m.delayed, index := m.index, delayed := m.delayed, childrenMemory := rest }
  match (if f.index = f.sectionIndex then f.childrenMemory.getLast? else none) with
  | some m => ({ f with partialMemory := none }, restore m f.childrenMemory.dropLast)
  | none => match f.partialMemory.bind (·.getLast?) with
    | some m => ({ f with partialMemory := none }, restore m ((f.partialMemory.getD []).dropLast))
    | none => (f, c)

/-- content.py:1058-1067; `y0` is `initial_y` -/
def CBox.childTook (f c : CBox σ) (y0 : Rat) (st : CStyle) : CBox σ := f.took y0 (c.minY - (if c.cols > 1 then c.maxY else c.y)) st

mutual

/-- `run`, content.py:563-602, of the first box; the others are its ancestors -/
def contentRun (exec : σ → Rat → Rat → Rat → Rat → Except PyErr (CellOut σ P B C)) :
    Nat → List (CBox σ) → COut P B C → CRun (CAct × List (CBox σ) × COut P B C)
  | 0, _, _ => .error none
  | _, [], _ => .error none
  | fuel + 1, f :: anc, w => match f.addDelayed exec fuel 0 w with
    | .error e => .error e
    | .ok (a, f, w) => match answerAct a (f :: anc) w with
      | (.retry, stk, w) => contentRun exec fuel stk w
      | (.interrupt, stk, w) => .ok (.interrupt, stk, w)
      | (.brk, stk, w) => .ok (.brk, stk, w)
      | (.partialNext, stk, w) => .ok (.partialNext, stk, w)
      | (_, stk, w) => match contentElements exec fuel stk w with
        | .error e => .error e
        | .ok (a, stk, w) => match answerAct a stk w with
          | (.retry, stk, w) => contentRun exec fuel stk w
          | (.interrupt, stk, w) => .ok (.interrupt, stk, w)
          | (.brk, stk, w) => .ok (.brk, stk, w)
          | (.partialNext, stk, w) => .ok (.partialNext, stk, w)
          | (_, [], w) => .ok (.cont, [], w)
          | (_, f :: anc, w) =>
            if f.delayed ≠ [] then contentRun exec fuel (f :: anc) w
            else if ¬ f.resetting ∧ f.cols > 1 then
              if lastOfResetting (f :: anc) then .ok (.cont, f :: anc, w)
              else match startResetting (f :: anc) with
                | [] => .ok (.brk, [], w)
                | f :: anc =>
                  if f.willReset then
                    let r := f.reset w
                    contentRun exec fuel (r.2.1 :: anc) r.2.2
                  else .ok (.brk, f :: anc, w)
            else if f.resetting then
              let r := CBox.reset { f with forward := false } w
              if r.1 then contentRun exec fuel (r.2.1 :: anc) r.2.2 else .ok (.cont, r.2.1 :: anc, r.2.2)
            else .ok (.cont, f :: anc, w)

/-- `add_elements`, content.py:471-519, with `process_child`, content.py:1015-1073 -/
def contentElements (exec : σ → Rat → Rat → Rat → Rat → Except PyErr (CellOut σ P B C)) :
    Nat → List (CBox σ) → COut P B C → CRun (CAct × List (CBox σ) × COut P B C)
  | 0, _, _ => .error none
  | _, [], _ => .error none
  | fuel + 1, f :: anc, w => match f.elements[f.index]? with
    | none => .ok (.cont, f :: anc, w)
    | some (.child cols gap els st) =>
      if cols = 0 then .error (some .zeroDivision)
      else
        let p := f.newChild cols gap els st (f.index + 1 = f.elements.length) w.parts.length
        match contentRun exec fuel (p.2 :: p.1 :: anc) w with
        | .error e => .error e
        | .ok (a, c :: f2 :: anc, w) =>
          let f2 := { f2 with elements := f2.elements.set f2.index (.child cols gap c.elements st) }
          let f2 := if a = .partialNext then f2 else f2.childTook c f.y st
          if a = .interrupt ∨ a = .brk ∨ a = .partialNext then .ok (a, f2 :: anc, w)
          else contentElements exec fuel ({ f2 with starting := false, index := f2.index + 1 } :: anc) w
        | .ok (a, stk, w) => .ok (a, stk, w)
    | some e => match f.process exec w e with
      | .error e => .error (some e)
      | .ok (a, e, f, w) =>
        let f := { f with
          elements := f.elements.set f.index e
          index := f.index + 1
          delayed := f.delayed ++ a.delayed.toList }
        if a.next then .ok (.next, f :: anc, w) else contentElements exec fuel (f :: anc) w

end

/-- the attributes of a `PDFContent` -/
structure CContent (σ P B C : Type) where
  cols : Nat
  gap : Option Rat
  elements : List (CEl σ)
  box : Option (CBox σ)
  out : COut P B C
  finished : Bool
  currentHeight : Rat

/-- `PDFContent.__init__`, content.py:179-192 -/
def CContent.new (cols : Nat) (gap : Option Rat) (els : List (CEl σ)) : CContent σ P B C := ⟨cols, gap, els, none, ⟨[], [], []⟩, false, 0⟩

/-- `PDFContent.run`, content.py:222-259 -/
def CContent.run (exec : σ → Rat → Rat → Rat → Rat → Except PyErr (CellOut σ P B C)) (fuel : Nat) (s : CContent σ P B C) (x y width height : Rat) :
    CRun (CContent σ P B C) :=
  if s.cols = 0 then .error (some .zeroDivision)
  else
    let f := (s.box.getD (CBox.blank s.cols s.gap s.elements true)).setup x width y (y - height) 0
    match contentRun exec fuel [f] ⟨[], [], []⟩ with
    | .error e => .error e
    | .ok (a, f :: _, w) => .ok { s with
        box := some f
        out := w
        finished := s.finished || (a = .cont)
        currentHeight := f.minY - (if f.cols > 1 then f.maxY else f.y) }
    | .ok (_, [], _) => .error none

/-- running a box over several rectangles until it is finished: all the parts, and the box -/
def CContent.runs (exec : σ → Rat → Rat → Rat → Rat → Except PyErr (CellOut σ P B C)) (fuel : Nat) :
    List (Rat × Rat × Rat × Rat) → CContent σ P B C → CRun (List (CPart P) × CContent σ P B C)
  | [], s => .ok ([], s)
  | (x, y, w, h) :: l, s =>
    if s.finished then .ok ([], s)
    else match s.run exec fuel x y w h with
      | .error e => .error e
      | .ok s => match CContent.runs exec fuel l s with
        | .error e => .error e
        | .ok (ps, s') => .ok (s.out.parts ++ ps, s')

end Verif
