import Verif.Py
/-! Specification of the CSS margin rule documented in `parse_margin`. -/
namespace Verif.Spec

/-- The four sides a list of numbers stands for. -/
structure Sides (N : Type) where
  top : N
  right : N
  bottom : N
  left : N
  deriving DecidableEq, Repr

/-- the rule documented at utils.py:95-101 (no number at all means zero) -/
def cssSides {N : Type} (zero : N) : List N → Sides N
  | [] => ⟨zero, zero, zero, zero⟩
  | [a] => ⟨a, a, a, a⟩
  | [a, b] => ⟨a, b, a, b⟩
  | [a, b, c] => ⟨a, b, c, b⟩
  | a :: b :: c :: d :: _ => ⟨a, b, c, d⟩

/-- a dict has exactly the four sides, with these values -/
def HasSides {N : Type} (d : List (Str × N)) (s : Sides N) : Prop :=
  d.length = 4 ∧ d.lookup c!"top" = some s.top ∧ d.lookup c!"right" = some s.right ∧
    d.lookup c!"bottom" = some s.bottom ∧ d.lookup c!"left" = some s.left

/-- number texts separated by single commas or single blanks -/
def sepText (first : Str) (rest : List (Char × Str)) : Str :=
  first ++ (rest.map fun p => p.1 :: p.2).flatten

end Verif.Spec
