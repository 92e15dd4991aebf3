import Verif.Model.RichText
/-! # Specification: the characters of a nested rich text

The characters of the text in order; each with the value of every style attribute and with its ids. -/
namespace Verif.Spec

/-- a character with its style and ids, a line break, or the place of a variable -/
inductive RAtom (V : Type)
  | ch (c : Char) (style : Str → Option V) (ids : List Str)
  | newline
  | var (name : Str) (style : Str → Option V) (ids : List Str)

/-- a style with some attributes changed: the last mention counts -/
def override {V : Type} (f : Str → Option V) (d : List (Str × V)) : Str → Option V :=
  d.foldl (fun f p k => if k = p.1 then some p.2 else f k) f

/-- the ids that a dict gives to its text -/
def ownIds {V : Type} (hd : RHead V) : List Str :=
  hd.ids ++ (hd.label.map (c!"$label:" ++ ·)).toList ++ (hd.ref.map (c!"$ref:" ++ ·)).toList
    ++ (hd.uri.map (c!"$uri:" ++ ·)).toList
    ++ (match hd.outline, hd.label with
      | some o, none => [c!"$label:" ++ o.uuid, c!"$outline:" ++ o.dumps o.uuid]
      | some o, some l => [c!"$outline:" ++ o.dumps l]
      | none, _ => [])

mutual
/-- the characters of an element, inside a text of the given style and ids -/
def richAtoms {V : Type} (f : Str → Option V) (ids : List Str) : RElem V → List (RAtom V)
  | .str s => s.map fun c => if c = '\n' then .newline else .ch c f ids
  | .bad => []
  | .node hd elems =>
    match hd.var with
    | some v => [.var v (override (override f hd.dot) hd.style) (ids ++ ownIds hd)]
    | none => richAtomsL (override (override f hd.dot) hd.style) (ids ++ ownIds hd) elems
/-- the characters of a list of elements -/
def richAtomsL {V : Type} (f : Str → Option V) (ids : List Str) : List (RElem V) → List (RAtom V)
  | [] => []
  | x :: l => richAtoms f ids x ++ richAtomsL f ids l
end

mutual
/-- no object of a wrong type, but for the elements of a dict with `var`, which are not read -/
def wellTyped {V : Type} : RElem V → Bool
  | .str _ => true
  | .bad => false
  | .node hd elems => hd.var.isSome || wellTypedL elems
/-- the same for a list -/
def wellTypedL {V : Type} : List (RElem V) → Bool
  | [] => true
  | x :: l => wellTyped x && wellTypedL l
end

/-- the characters of flat parts -/
def partAtoms {V : Type} : RPart V → List (RAtom V)
  | .br => [.newline]
  | .text style t ids none => t.map fun c => .ch c (fun k => dget k style) ids
  | .text style _ ids (some v) => [.var v (fun k => dget k style) ids]

end Verif.Spec
