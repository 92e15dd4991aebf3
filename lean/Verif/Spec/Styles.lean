import Verif.Model.Styles
/-! Specification of styles: what is said nearest to an element holds. Styles are layers, the nearest one first; `says` looks a key up in
them. What a table keeps for itself (its borders) is hidden from its cells, and what a cell keeps for itself (its margins and its fill) is
hidden from what is inside the cell. -/
namespace Verif.Spec

variable {V : Type}

/-- what the first layer that has the key says -/
def says (L : List (List (Str × V))) (k : Str) : Option V := L.findSome? fun d => (d.find? fun p => decide (p.1 = k)).map (·.2)

/-- layers without some keys -/
def hide (ks : List Str) (L : List (List (Str × V))) : List (List (Str × V)) := L.map fun d => d.filter fun p => decide (p.1 ∉ ks)

def borderKeys : List Str := [c!"border_width", c!"border_color", c!"border_style"]

def cellKeys : List Str :=
  [c!"cell_margin", c!"cell_margin_top", c!"cell_margin_right", c!"cell_margin_bottom", c!"cell_margin_left", c!"cell_fill"]

/-- what the `style` of an element says -/
def given (X : StyleCtx V) : StyleArg V → List (Str × V)
  | .dict d => d
  | .name s => (((X.formats.getD []).find? fun p => decide (p.1 = s)).map (·.2)).getD []
  | _ => []

/-- what the style string of an element says -/
def written (X : StyleCtx V) (dot : Str) : List (Str × V) :=
  match parseStyleStr X.env dot with
  | .ok d => d.map fun p => (p.1, X.inj p.2)
  | .error _ => []

/-- the defaults of texts, of tables and of content boxes, as they are documented -/
def textLayer (X : StyleCtx V) : List (Str × V) :=
  [(c!"f", X.str c!"Helvetica"), (c!"s", X.num 11), (c!"c", X.num (1/10)), (c!"bg", X.vnone), (c!"r", X.num 0)]

def tableLayer (X : StyleCtx V) : List (Str × V) := [(c!"cell_fill", X.vnone), (c!"cell_margin", X.num 5)]

def boxLayer (X : StyleCtx V) : List (Str × V) := [(c!"margin_bottom", X.num 5)]

/-- what is to come out, with the layers that decide it -/
inductive SWant (V : Type)
  | text (par final : List (List (Str × V)))
  | image (L : List (List (Str × V)))
  | table (L : List (List (Str × V)))
  | cell (L : List (List (Str × V)))

mutual
/-- an element of a content box or of a group, `L` is said around it -/
def wantElem (X : StyleCtx V) (L : List (List (Str × V))) : STree V → List (SWant V)
  | .text dot st => [.text (given X st :: written X dot :: L) (given X st :: written X dot :: L ++ [textLayer X])]
  | .image st => [.image (given X st :: L)]
  | .table st cells => .table (given X st :: L) :: wantCells X (hide borderKeys (given X st :: L) ++ [tableLayer X]) cells
  | .box st elems => wantElems X (given X st :: L ++ [boxLayer X]) elems
  | .group st elems => wantElems X (given X st :: L) elems

def wantElems (X : StyleCtx V) (L : List (List (Str × V))) : List (STree V) → List (SWant V)
  | [] => []
  | t :: l => wantElem X L t ++ wantElems X L l

/-- a cell of a table -/
def wantCell (X : StyleCtx V) (L : List (List (Str × V))) : STree V → List (SWant V)
  | .text dot st =>
    let P := given X st :: written X dot :: L
    [.cell P, .text (hide cellKeys P) (hide cellKeys P ++ [textLayer X])]
  | .image st => [.cell (given X st :: L)]
  | .table st cells =>
    let P := hide cellKeys (given X st :: L)
    .cell (given X st :: L) :: .table P :: wantCells X (hide borderKeys P ++ [tableLayer X]) cells
  | .box st elems =>
    .cell (given X st :: L) :: wantElems X (hide cellKeys (given X st :: L) ++ [boxLayer X]) elems
  | .group st _ => [.cell (given X st :: L)]

def wantCells (X : StyleCtx V) (L : List (List (Str × V))) : List (STree V) → List (SWant V)
  | [] => []
  | t :: l => wantCell X L t ++ wantCells X L l
end

/-- a dict has the items that the layers say -/
def Follows (d : List (Str × V)) (L : List (List (Str × V))) : Prop := ∀ k, dget k d = says L k

/-- what came out is what is to come out. A side of a cell whose margin is not said has the `cell_margin`. -/
def Meets (X : StyleCtx V) : SEvent V → SWant V → Prop
  | .text s f, .text P F => Follows s P ∧ Follows f F
  | .image s, .image L => Follows s L
  | .table t, .table L =>
    t.width = (says L c!"border_width").getD (X.num (1/2)) ∧ t.color = (says L c!"border_color").getD (X.num 0)
      ∧ t.border = (says L c!"border_style").getD (X.str c!"solid")
  | .cell c, .cell L =>
    let side := fun k => ((says L k).or (says L c!"cell_margin")).getD X.vnone
    c.top = side c!"cell_margin_top" ∧ c.right = side c!"cell_margin_right" ∧ c.bottom = side c!"cell_margin_bottom"
      ∧ c.left = side c!"cell_margin_left" ∧ c.fill = (says L c!"cell_fill").getD X.vnone
  | _, _ => False

/-- no key twice -/
def IsDict (d : List (Str × V)) : Prop := (d.map Prod.fst).Nodup

mutual
/-- the styles in a tree are dicts -/
def TreeDicts : STree V → Prop
  | .text _ st => ArgDict st
  | .image st => ArgDict st
  | .table st l => ArgDict st ∧ TreesDicts l
  | .box st l => ArgDict st ∧ TreesDicts l
  | .group st l => ArgDict st ∧ TreesDicts l

def TreesDicts : List (STree V) → Prop
  | [] => True
  | t :: l => TreeDicts t ∧ TreesDicts l

def ArgDict : StyleArg V → Prop
  | .dict d => IsDict d
  | _ => True
end

mutual
/-- nothing in the tree is wrong: style strings can be read, the names are those of formats, styles are dicts or names, and groups have no
content boxes and no groups in them -/
def TreeFine (X : StyleCtx V) (inGroup : Bool) : STree V → Prop
  | .text dot st => (∃ d, parseStyleStr X.env dot = .ok d) ∧ ArgFine X st
  | .image st => ArgFine X st
  | .table st l => ArgFine X st ∧ TreesFine X false l
  | .box st l => inGroup = false ∧ ArgFine X st ∧ TreesFine X false l
  | .group st l => inGroup = false ∧ ArgFine X st ∧ TreesFine X true l

def TreesFine (X : StyleCtx V) (inGroup : Bool) : List (STree V) → Prop
  | [] => True
  | t :: l => TreeFine X inGroup t ∧ TreesFine X inGroup l

def ArgFine (X : StyleCtx V) : StyleArg V → Prop
  | .other => False
  | .name s => ∀ fs, X.formats = some fs → s ∈ fs.map Prod.fst
  | _ => True
end

end Verif.Spec
