import Verif.Model.Content
import Verif.Model.Cells
/-! Model of the paragraphs of a content box as the objects they are (content.py:827-885).

In Model/Content the paragraphs are values: a run from a saved state is the same as the run it was saved in. In the code they are `PDFText` objects that are shared by all copies
of a saved state, because `copy` (utils.py) copies dicts and lists only, and `set_state` (text.py:539-553) sets two of their attributes. Here is the same content box with a list
of these objects. Simplifications: no groups, and no boxes or tables inside. -/
namespace Verif

/-- a paragraph of a content box: an element that has not been made a `PDFText` of yet, or the dict of content.py:864 and 884 for the rest of one: the `PDFText`
(its place among all of them) and the state of content.py:884 -/
inductive ParRef
  | fresh (cfg : TCfg)
  | rest (obj : Nat) (lastPart lastWord : Nat)

/-- the `PDFText` objects made so far -/
abbrev ParHeap := List (TCfg × TPos)

variable {B C : Type}

/-- content.py:849-864: the object and its attributes before `run`; `set_state` (text.py:539-553) sets two of them -/
def ParRef.get (H : ParHeap) : ParRef → Except PyErr (Nat × TCfg × TPos)
  | .fresh cfg => .ok (H.length, cfg, TPos.init)
  | .rest n p w => match H[n]? with
    | none => .error .keyError
    | some (cfg, pos) => .ok (n, cfg, { pos with lastPart := p, lastWord := w, finished := false })

/-- `process_text`, content.py:827-885: what `run` does to the objects -/
def parHeap (M : Metrics) (H : ParHeap) (c : ParRef) (w h : Rat) : ParHeap :=
  match c.get H with
  | .error _ => H
  | .ok (n, cfg, pos) => if n = H.length then H ++ [(cfg, (textRun M cfg w h pos).pos)] else H.set n (cfg, (textRun M cfg w h pos).pos)

/-- `process_text`, content.py:849-885: what comes of it -/
def parRun (M : Metrics) (H : ParHeap) (c : ParRef) (x y w h : Rat) : Except PyErr (CellOut ParRef LeafPart B C) :=
  match c.get H with
  | .error e => .error e
  | .ok (n, cfg, pos) =>
    let r := textRun M cfg w h pos
    .ok ⟨[.par x y w r.curHeight cfg r.lines], [], [], r.curHeight, r.pos.finished, .rest n r.pos.lastPart r.pos.lastWord⟩

/-- the objects after `process` of an element, content.py:796-825 -/
def CBox.objects (M : Metrics) (f : CBox ParRef) (H : ParHeap) : CEl ParRef → ParHeap
  | .leaf c st => parHeap M H c ((f.descend st true).elWidth st) (f.descend st true).room
  | _ => H

/-- `add_delayed`, content.py:434-469 -/
def objDelayed (M : Metrics) : Nat → Nat → CBox ParRef → ParHeap → COut LeafPart B C → CRun (CAct × CBox ParRef × ParHeap × COut LeafPart B C)
  | 0, _, _, _, _ => .error none
  | fuel + 1, n, f, H, w => match f.delayed[n]? with
    | none => .ok (if f.delayed ≠ [] ∧ f.elements.length ≤ f.index + 1 then .next else .cont, f, H, w)
    | some e => match f.process (parRun M H) w e with
      | .error e => .error (some e)
      | .ok (a, _, f1, w) =>
        let f2 := { f1 with delayed := replaceAt f1.delayed n a.delayed }
        if a.next then .ok (.next, f2, f.objects M H e, w) else objDelayed M fuel (if a.flow then n + 1 else n) f2 (f.objects M H e) w

/-- `add_elements`, content.py:471-519, without boxes inside -/
def objElements (M : Metrics) : Nat → CBox ParRef → ParHeap → COut LeafPart B C → CRun (CAct × CBox ParRef × ParHeap × COut LeafPart B C)
  | 0, _, _, _ => .error none
  | fuel + 1, f, H, w => match f.elements[f.index]? with
    | none => .ok (.cont, f, H, w)
    | some e => match f.process (parRun M H) w e with
      | .error e => .error (some e)
      | .ok (a, e', f1, w) =>
        let f2 := { f1 with
          elements := f1.elements.set f1.index e'
          index := f1.index + 1
          delayed := f1.delayed ++ a.delayed.toList }
        if a.next then .ok (.next, f2, f.objects M H e, w) else objElements M fuel f2 (f.objects M H e) w

/-- `run`, content.py:563-602, of a box without a parent -/
def objRun (M : Metrics) : Nat → CBox ParRef → ParHeap → COut LeafPart B C → CRun (CAct × CBox ParRef × ParHeap × COut LeafPart B C)
  | 0, _, _, _ => .error none
  | fuel + 1, f, H, w => match objDelayed M fuel 0 f H w with
    | .error e => .error e
    | .ok (a, f, H, w) => match answerAct a [f] w with
      | (.retry, f :: _, w) => objRun M fuel f H w
      | (.interrupt, f :: _, w) => .ok (.interrupt, f, H, w)
      | (.brk, f :: _, w) => .ok (.brk, f, H, w)
      | (.partialNext, f :: _, w) => .ok (.partialNext, f, H, w)
      | (_, [], _) => .error none
      | (_, f :: _, w) => match objElements M fuel f H w with
        | .error e => .error e
        | .ok (a, f, H, w) => match answerAct a [f] w with
          | (.retry, f :: _, w) => objRun M fuel f H w
          | (.interrupt, f :: _, w) => .ok (.interrupt, f, H, w)
          | (.brk, f :: _, w) => .ok (.brk, f, H, w)
          | (.partialNext, f :: _, w) => .ok (.partialNext, f, H, w)
          | (_, [], _) => .error none
          | (_, f :: _, w) =>
            if f.delayed ≠ [] then objRun M fuel f H w
            else if ¬ f.resetting ∧ f.cols > 1 then
              let r := CBox.reset { f with willReset := true } w
              objRun M fuel r.2.1 H r.2.2
            else if f.resetting then
              let r := CBox.reset { f with forward := false } w
              if r.1 then objRun M fuel r.2.1 H r.2.2 else .ok (.cont, r.2.1, H, r.2.2)
            else .ok (.cont, f, H, w)

/-- a `PDFContent`, and the paragraphs made for it -/
structure ObjContent (B C : Type) where
  box : CBox ParRef
  heap : ParHeap
  out : COut LeafPart B C
  finished : Bool

/-- `PDFContent.__init__`, content.py:179-192 -/
def ObjContent.new (cols : Nat) (gap : Option Rat) (els : List (CEl ParRef)) : ObjContent B C := ⟨CBox.blank cols gap els true, [], ⟨[], [], []⟩, false⟩

/-- `PDFContent.run`, content.py:222-259 -/
def ObjContent.run (M : Metrics) (fuel : Nat) (s : ObjContent B C) (x y width height : Rat) : CRun (ObjContent B C) :=
  if s.box.cols = 0 then .error (some .zeroDivision)
  else match objRun M fuel (s.box.setup x width y (y - height) 0) s.heap ⟨[], [], []⟩ with
    | .error e => .error e
    | .ok (a, f, H, w) => .ok ⟨f, H, w, s.finished || (a = .cont)⟩

/-- running a box over several rectangles until it is finished -/
def ObjContent.runs (M : Metrics) (fuel : Nat) : List (Rat × Rat × Rat × Rat) → ObjContent B C → CRun (List (CPart LeafPart) × ObjContent B C)
  | [], s => .ok ([], s)
  | (x, y, w, h) :: l, s =>
    if s.finished then .ok ([], s)
    else match s.run M fuel x y w h with
      | .error e => .error e
      | .ok s => match ObjContent.runs M fuel l s with
        | .error e => .error e
        | .ok (ps, s') => .ok (s.out.parts ++ ps, s')

/-- `_add_content`, document.py:362-404, up to the drawing of the footnotes: the section is run in the page, and if there are footnotes, it is set back
(content.py:412-432) and run again in what they leave. `notes` is the height of the footnotes that belong to the parts, `gap` the `footnotes_margin`. -/
def ObjContent.page (M : Metrics) (fuel : Nat) (notes : List (CPart LeafPart) → Option Rat) (gap : Rat) (s : ObjContent B C) (x y width height : Rat) : CRun (ObjContent B C) :=
  match s.run M fuel x y width height with
  | .error e => .error e
  | .ok s1 => match notes s1.out.parts with
    | none => .ok s1
    | some n =>
      if n ≥ height - gap - 20 then .error (some .exception)
      else
        ObjContent.run M fuel { s1 with
          box := { s1.box with sectionIndex := s.box.sectionIndex, sectionDelayed := s.box.sectionDelayed, childrenMemory := s.box.childrenMemory }
          finished := false } x y width (height - n - gap)

/-- `_process_section`, document.py:340-360: the parts of all pages -/
def ObjContent.pages (M : Metrics) (fuel : Nat) (notes : List (CPart LeafPart) → Option Rat) (gap : Rat) :
    List (Rat × Rat × Rat × Rat) → ObjContent B C → CRun (List (CPart LeafPart) × ObjContent B C)
  | [], s => .ok ([], s)
  | (x, y, w, h) :: l, s =>
    if s.finished then .ok ([], s)
    else match s.page M fuel notes gap x y w h with
      | .error e => .error e
      | .ok s => match ObjContent.pages M fuel notes gap l s with
        | .error e => .error e
        | .ok (ps, s') => .ok (s.out.parts ++ ps, s')

end Verif
