import Verif.Py
/-! Independent specification of Python `range` and `slice`. -/
namespace Verif.Spec

/-- `n` is an element of `range(a, b, c)`: it is reached from `a` by whole steps before `b`. -/
def InRange (a b c n : Int) : Prop :=
  ∃ k : Nat, n = a + k * c ∧ (if 0 < c then n < b else b < n)

/-- Lower end of the clipping interval of a slice over `count` elements with step `c`. -/
def sliceLo (c : Int) : Int := if c < 0 then -1 else 0
/-- Upper end of the clipping interval. -/
def sliceHi (count : Nat) (c : Int) : Int := if c < 0 then (count : Int) - 1 else count

/-- Clipping of one end of a slice (`PySlice_AdjustIndices`). -/
def clipEnd (count : Nat) (c x : Int) : Int :=
  if x < 0 then (if x + count < 0 then sliceLo c else x + count)
  else if x ≥ count then sliceHi count c else x

/-- first component of `slice(start, stop, step).indices(count)` -/
def sliceStart (count : Nat) (c : Int) : Option Int → Int
  | none => if c < 0 then (count : Int) - 1 else 0
  | some x => clipEnd count c x

/-- second component of `slice(start, stop, step).indices(count)` -/
def sliceStop (count : Nat) (c : Int) : Option Int → Int
  | none => if c < 0 then -1 else count
  | some x => clipEnd count c x

/-- index `i` is selected by `seq[start:stop:step]` on a sequence of `count` elements -/
def Selected (count : Nat) (start stop step : Option Int) (i : Int) : Prop :=
  let c := step.getD 1
  InRange (sliceStart count c start) (sliceStop count c stop) c i

/-- index `i` is meant by the (possibly negative) index `x` on `count` elements -/
def Indexed (count : Nat) (x i : Int) : Prop := i = if x < 0 then count + x else x

/-- An integer as it may be written: decimal digits with an optional minus sign, blanks around. -/
structure IntText where
  pre : Str
  val : Int
  post : Str

/-- all characters are blanks -/
def Blank (s : Str) : Prop := ∀ c ∈ s, c = ' ' ∨ c = '\t'

/-- the blanks are blanks -/
def IntText.Ok (t : IntText) : Prop := Blank t.pre ∧ Blank t.post

/-- the text -/
def IntText.text (t : IntText) : Str := t.pre ++ intStr t.val ++ t.post

/-- texts joined with a separator -/
def joinWith (sep : Char) : List Str → Str
  | [] => []
  | [s] => s
  | s :: t :: l => s ++ sep :: joinWith sep (t :: l)

/-- An optional integer as written: blanks only, or an integer. -/
inductive OptText
  | blank (s : Str)
  | num (t : IntText)

/-- the blanks are blanks -/
def OptText.Ok : OptText → Prop
  | .blank s => Blank s
  | .num t => t.Ok

/-- the text -/
def OptText.text : OptText → Str
  | .blank s => s
  | .num t => t.text

/-- the value -/
def OptText.val : OptText → Option Int
  | .blank _ => none
  | .num t => some t.val

/-- One item of a page range string: `n`, `start:stop` or `start:stop:step`. -/
inductive PageItem
  | one (n : IntText)
  | two (start : OptText) (stop : IntText)
  | three (start : OptText) (stop step : IntText)

/-- the blanks are blanks and the step is not zero -/
def PageItem.Ok : PageItem → Prop
  | .one n => n.Ok
  | .two a b => a.Ok ∧ b.Ok
  | .three a b c => a.Ok ∧ b.Ok ∧ c.Ok ∧ c.val ≠ 0

/-- the text -/
def PageItem.text : PageItem → Str
  | .one n => n.text
  | .two a b => joinWith ':' [a.text, b.text]
  | .three a b c => joinWith ':' [a.text, b.text, c.text]

/-- the pages an item stands for -/
def PageItem.Means : PageItem → Int → Prop
  | .one t, n => n = t.val
  | .two a b, n => InRange (a.val.getD 0) b.val 1 n
  | .three a b c, n => InRange (a.val.getD 0) b.val c.val n

end Verif.Spec
