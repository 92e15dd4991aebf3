import Verif.Model.TableRun
/-! Model of `PDF.table` (pdf.py:782-803). -/
namespace Verif

variable {σ P B C : Type}

/-- The loop of `PDF.table`, pdf.py:794-803: the table is run in the rest of the page and then, as long as it is not finished, in a new page. The
rectangles are given; all the parts, and the table. -/
def TS.pages [DecidableEq B] (T : TConf σ P B C) : List (Rat × Rat × Rat × Rat) → TS σ P B C → Except PyErr (List P × TS σ P B C)
  | [], s => .ok ([], s)
  | (x, y, w, h) :: l, s =>
    if s.finished then .ok ([], s)
    else match s.run T x y w h with
    | .error e => .error e
    | .ok s1 => match TS.pages T l s1 with
      | .error e => .error e
      | .ok r => .ok (s1.parts ++ r.1, r.2)

end Verif
