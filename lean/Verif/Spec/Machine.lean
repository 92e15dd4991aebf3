import Verif.Spec.Content
/-! # Specification: the PDF imaging machine (ISO 32000-1, 8.4, 8.5, 9.3, 9.4)

Interprets the operators of a content stream: graphics state with `q`/`Q`, path construction and
painting, text objects. Numbers stay as written. Painting produces events that record the graphics
state in force. Unknown operators, wrong operands, or operators outside of the place where they are
allowed give `none`. -/
namespace Verif.Spec

/-- the graphics state -/
structure GS where
  fill : List Bytes        -- non-stroking colour components
  stroke : List Bytes      -- stroking colour components
  width : Bytes            -- line width
  cap : Bytes              -- line cap style
  dash : List Bytes × Bytes -- dash array and phase
  cms : List (List Bytes)  -- matrices concatenated with `cm`, outermost first
  font : Bytes × Bytes     -- font resource and size
  rise : Bytes             -- text rise
  wordSpace : Bytes        -- word spacing
  deriving DecidableEq, Repr

/-- a part of the path under construction -/
inductive Seg
  | rect (x y w h : Bytes)
  | move (x y : Bytes)
  | line (x y : Bytes)
  deriving DecidableEq, Repr

/-- what gets painted -/
inductive Event
  | fill (gs : GS) (path : List Seg)
  | stroke (gs : GS) (path : List Seg)
  | text (gs : GS) (tm : List Bytes) (moves : List (Bytes × Bytes)) (s : Bytes)
  | xobject (gs : GS) (name : Bytes)
  deriving DecidableEq, Repr

/-- the machine: graphics state, stack, path, text object (matrix and relative moves so far) -/
structure MS where
  gs : GS
  stack : List GS
  path : List Seg
  text : Option (List Bytes × List (Bytes × Bytes))
  deriving DecidableEq, Repr

/-- numeric operands -/
def nums : List Operand → Option (List Bytes)
  | [] => some []
  | .num b :: l => (nums l).map (b :: ·)
  | _ :: _ => none

/-- one operator -/
def step (m : MS) (o : Op) : Option (MS × List Event) :=
  let set (gs : GS) : Option (MS × List Event) :=
    if m.path = [] then some ({ m with gs := gs }, []) else none
  if o.op = b!"q" then
    if o.args = [] ∧ m.path = [] ∧ m.text = none then some ({ m with stack := m.gs :: m.stack }, [])
    else none
  else if o.op = b!"Q" then
    match m.stack with
    | [] => none
    | g :: l => if o.args = [] ∧ m.path = [] ∧ m.text = none then some ({ m with gs := g, stack := l }, [])
      else none
  else if o.op = b!"Tf" then
    match o.args with
    | [.name f, .num s] => set { m.gs with font := (f, s) }
    | _ => none
  else if o.op = b!"d" then
    match o.args with
    | [.arr l, .num p] => set { m.gs with dash := (l, p) }
    | _ => none
  else if o.op = b!"Tj" then
    match o.args, m.text with
    | [.str s], some (tm, mv) => some (m, [.text m.gs tm mv s])
    | _, _ => none
  else if o.op = b!"Do" then
    match o.args with
    | [.name n] => if m.path = [] ∧ m.text = none then some (m, [.xobject m.gs n]) else none
    | _ => none
  else match nums o.args with
    | none => none
    | some ns =>
      if o.op = b!"g" then (match ns with
        | [_] => set { m.gs with fill := ns }
        | _ => none)
      else if o.op = b!"G" then (match ns with
        | [_] => set { m.gs with stroke := ns }
        | _ => none)
      else if o.op = b!"rg" then (match ns with
        | [_, _, _] => set { m.gs with fill := ns }
        | _ => none)
      else if o.op = b!"RG" then (match ns with
        | [_, _, _] => set { m.gs with stroke := ns }
        | _ => none)
      else if o.op = b!"w" then (match ns with
        | [w] => set { m.gs with width := w }
        | _ => none)
      else if o.op = b!"J" then (match ns with
        | [j] => set { m.gs with cap := j }
        | _ => none)
      else if o.op = b!"cm" then (match ns with
        | [_, _, _, _, _, _] => if m.text = none then set { m.gs with cms := m.gs.cms ++ [ns] } else none
        | _ => none)
      else if o.op = b!"Ts" then (match ns with
        | [r] => set { m.gs with rise := r }
        | _ => none)
      else if o.op = b!"Tw" then (match ns with
        | [r] => set { m.gs with wordSpace := r }
        | _ => none)
      else if o.op = b!"re" then (match ns with
        | [x, y, w, h] => if m.text = none then some ({ m with path := m.path ++ [.rect x y w h] }, []) else none
        | _ => none)
      else if o.op = b!"m" then (match ns with
        | [x, y] => if m.text = none then some ({ m with path := m.path ++ [.move x y] }, []) else none
        | _ => none)
      else if o.op = b!"l" then (match ns with
        | [x, y] => if m.text = none ∧ m.path ≠ [] then some ({ m with path := m.path ++ [.line x y] }, []) else none
        | _ => none)
      else if o.op = b!"F" then
        if ns = [] ∧ m.path ≠ [] then some ({ m with path := [] }, [.fill m.gs m.path]) else none
      else if o.op = b!"S" then
        if ns = [] ∧ m.path ≠ [] then some ({ m with path := [] }, [.stroke m.gs m.path]) else none
      else if o.op = b!"BT" then
        if ns = [] ∧ m.path = [] ∧ m.text = none then some ({ m with text := some ([], []) }, []) else none
      else if o.op = b!"ET" then
        if ns = [] ∧ m.text.isSome then some ({ m with text := none }, []) else none
      else if o.op = b!"Tm" then (match ns, m.text with
        | [_, _, _, _, _, _], some _ => some ({ m with text := some (ns, []) }, [])
        | _, _ => none)
      else if o.op = b!"Td" then (match ns, m.text with
        | [x, y], some (tm, mv) => some ({ m with text := some (tm, mv ++ [(x, y)]) }, [])
        | _, _ => none)
      else none

/-- a list of operators: the final machine and what was painted -/
def exec (m : MS) : List Op → Option (MS × List Event)
  | [] => some (m, [])
  | o :: l => match step m o with
    | none => none
    | some (m', e) => (exec m' l).map fun r => (r.1, e ++ r.2)

/-- a content stream -/
def execStream (m : MS) (b : Bytes) : Option (MS × List Event) :=
  match opsOf b with
  | none => none
  | some ops => exec m ops

end Verif.Spec
