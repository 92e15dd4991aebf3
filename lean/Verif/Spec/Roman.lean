import Verif.Py
/-! Independent specification of Roman numerals. -/
namespace Verif.Spec

/-- Value of one Roman symbol. -/
def symbol : Char → Option Nat
  | 'I' => some 1 | 'V' => some 5 | 'X' => some 10 | 'L' => some 50
  | 'C' => some 100 | 'D' => some 500 | 'M' => some 1000
  | _ => none

/-- Value of a Roman numeral by the subtractive reading rule: a symbol smaller than its successor is
subtracted, otherwise added. -/
def romanValue : Str → Option Int
  | [] => some 0
  | [c] => (symbol c).map fun v => (v : Int)
  | c :: d :: rest =>
    match symbol c, symbol d, romanValue (d :: rest) with
    | some v, some w, some r => some (if v < w then r - v else r + v)
    | _, _, _ => none

/-- The canonical numeral: repeatedly take the largest of the thirteen standard groups. -/
def groups : List (Nat × Str) :=
  [(1000, c!"M"), (900, c!"CM"), (500, c!"D"), (400, c!"CD"), (100, c!"C"), (90, c!"XC"),
   (50, c!"L"), (40, c!"XL"), (10, c!"X"), (9, c!"IX"), (5, c!"V"), (4, c!"IV"), (1, c!"I")]

/-- canonical numeral of `n` by the greedy rule -/
def canonical (n : Nat) : Str :=
  (groups.foldl (fun (acc : Str × Nat) g =>
    (acc.1 ++ (List.replicate (acc.2 / g.1) g.2).flatten, acc.2 % g.1)) ([], n)).1

end Verif.Spec
