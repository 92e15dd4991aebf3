import Verif.Model.Margin
import Verif.Spec.Margin
/-! C15: margins. -/
namespace Verif
open Spec

theorem splitCS_free {s : Str} (h : ',' ∉ s ∧ ' ' ∉ s) : splitCommaSpace s = [s] := by
  induction s with
  | nil => rfl
  | cons c cs ih =>
    simp only [List.mem_cons, not_or] at h
    rw [splitCommaSpace, if_neg (by
      rintro (rfl | rfl)
      · exact h.1.1 rfl
      · exact h.2.1 rfl), ih ⟨h.1.2, h.2.2⟩]

theorem splitCS_append {s : Str} (h : ',' ∉ s ∧ ' ' ∉ s) {c : Char} (hc : c = ',' ∨ c = ' ') (r : Str) :
    splitCommaSpace (s ++ c :: r) = s :: splitCommaSpace r := by
  induction s with
  | nil => rw [List.nil_append, splitCommaSpace, if_pos hc]
  | cons d cs ih =>
    simp only [List.mem_cons, not_or] at h
    rw [List.cons_append, splitCommaSpace, if_neg (by
      rintro (rfl | rfl)
      · exact h.1.1 rfl
      · exact h.2.1 rfl), ih ⟨h.1.2, h.2.2⟩]

theorem splitCS_sepText {rest : List (Char × Str)} : ∀ {first : Str}, (',' ∉ first ∧ ' ' ∉ first) →
    (∀ p ∈ rest, (p.1 = ',' ∨ p.1 = ' ') ∧ ',' ∉ p.2 ∧ ' ' ∉ p.2) →
    splitCommaSpace (sepText first rest) = first :: rest.map Prod.snd := by
  induction rest with
  | nil => intro first h _; simpa [sepText] using splitCS_free h
  | cons p rest ih =>
    intro first h hp
    have h1 := hp p (by simp)
    have : sepText first (p :: rest) = first ++ p.1 :: sepText p.2 rest := by
      simp [sepText]
    rw [this, splitCS_append h h1.1, ih h1.2 fun q hq => hp q (by simp [hq])]
    rfl

/-- the sequence branch: lists of any length, tuples of any length but three -/
theorem marginSeq_sides {N} [OfNat N 0] (isTuple : Bool) (l : List N)
    (h : ¬ (isTuple = true ∧ l.length = 3)) :
    ∃ d, marginSeq isTuple l = .ok d ∧ HasSides d (cssSides 0 l) := by
  unfold marginSeq
  split
  · exact ⟨_, rfl, rfl, rfl, rfl, rfl, rfl⟩
  · exact ⟨_, rfl, rfl, rfl, rfl, rfl, rfl⟩
  · exact ⟨_, rfl, rfl, rfl, rfl, rfl, rfl⟩
  · rw [if_neg (by simpa using h)]
    exact ⟨_, rfl, rfl, rfl, rfl, rfl, rfl⟩
  · exact ⟨_, rfl, rfl, rfl, rfl, rfl, rfl⟩
  · rename_i h0 h1 h2 h3 h4
    match l, h0, h1, h2, h3, h4 with
    | [], h0, _, _, _, _ => exact absurd rfl h0
    | [a], _, h1, _, _, _ => exact absurd rfl (h1 a)
    | [a, b], _, _, h2, _, _ => exact absurd rfl (h2 a b)
    | [a, b, c], _, _, _, h3, _ => exact absurd rfl (h3 a b c)
    | a :: b :: c :: d :: l, _, _, _, _, _ => exact ⟨_, rfl, rfl, rfl, rfl, rfl, rfl⟩

/-- C15, lists: every list of numbers gives the documented four sides. -/
theorem C15_margin_list {N} [OfNat N 0] (pf : Str → Option N) (l : List N) :
    ∃ d, parseMargin pf (.list l) = .ok d ∧ HasSides d (cssSides 0 l) :=
  marginSeq_sides false l (by simp)

/-- C15, numbers: a number is the margin of the four sides. -/
theorem C15_margin_number {N} [OfNat N 0] (pf : Str → Option N) (n : N) :
    ∃ d, parseMargin pf (.num n) = .ok d ∧ HasSides d (cssSides 0 [n]) :=
  ⟨_, rfl, rfl, rfl, rfl, rfl, rfl⟩

/-- C15, tuples, partial: tuples of any length but three. Missing: three-element tuples, which the code
rejects (`C15_margins_false`). -/
theorem C15_margin_tuple_partial {N} [OfNat N 0] (pf : Str → Option N) (l : List N)
    (h : l.length ≠ 3) : ∃ d, parseMargin pf (.tuple l) = .ok d ∧ HasSides d (cssSides 0 l) :=
  marginSeq_sides true l (by simpa using h)

/-- C15, strings, partial: two or more number texts separated by single commas or blanks. Missing: a
string with a single number, which the code rejects (`C15_margins_false`), and separators of more than
one character (`C15_two_separators`). -/
theorem C15_margin_string_partial {N} [OfNat N 0] (pf : Str → Option N) (first : Str)
    (rest : List (Char × Str)) (hne : rest ≠ []) (v : N) (vs : List N)
    (h1 : ',' ∉ first ∧ ' ' ∉ first)
    (h2 : ∀ p ∈ rest, (p.1 = ',' ∨ p.1 = ' ') ∧ ',' ∉ p.2 ∧ ' ' ∉ p.2)
    (hv : pf first = some v) (hvs : rest.map (fun p => pf p.2) = vs.map some) :
    ∃ d, parseMargin pf (.str (sepText first rest)) = .ok d ∧ HasSides d (cssSides 0 (v :: vs)) := by
  have hl : ∀ (l : List Str) (ws : List N), l.map pf = ws.map some → floats pf l = .ok ws := by
    intro l
    induction l with
    | nil => intro ws h; cases ws <;> simp_all [floats]
    | cons s l ih =>
      intro ws h
      cases ws with
      | nil => simp at h
      | cons w ws =>
        simp only [List.map_cons, List.cons.injEq] at h
        simp only [floats, h.1, ih ws h.2]
  simp only [parseMargin, splitCS_sepText h1 h2]
  rw [if_neg (by simpa using hne), hl (first :: rest.map Prod.snd) (v :: vs) (by
    simp only [List.map_cons, hv, List.cons.injEq, true_and, List.map_map]
    rw [← hvs]; rfl)]
  exact marginSeq_sides false (v :: vs) (by simp)

/-- C15, dicts are returned unchanged. -/
theorem C15_margin_dict {N} [OfNat N 0] (pf : Str → Option N) (d : List (Str × N)) :
    parseMargin pf (.dict d) = .ok d := rfl

/-- C15 is false in general: every three-element tuple, and every string holding a single number, is
rejected with a `TypeError` although the documentation gives both a meaning. -/
theorem C15_margins_false {N} [OfNat N 0] (pf : Str → Option N) :
    (∀ a b c : N, parseMargin pf (.tuple [a, b, c]) = .error .typeError) ∧
    (∀ s : Str, ',' ∉ s → ' ' ∉ s → parseMargin pf (.str s) = .error .typeError) := by
  refine ⟨fun a b c => rfl, ?_⟩
  intro s h1 h2
  simp only [parseMargin, splitCS_free ⟨h1, h2⟩]
  rfl

/-- C15: a comma followed by a blank leaves an empty piece between them, so `"10, 20"` is rejected. -/
theorem C15_two_separators {N} [OfNat N 0] (pf : Str → Option N) (hpf : pf [] = none) (a b : Str)
    (ha : ',' ∉ a ∧ ' ' ∉ a) : parseMargin pf (.str (a ++ c!", " ++ b)) = .error .valueError := by
  have : a ++ c!", " ++ b = a ++ ',' :: ([] ++ ' ' :: b) := by simp
  simp only [parseMargin, this]
  rw [splitCS_append ha (.inl rfl), splitCS_append (by simp) (.inr rfl), if_neg (by simp)]
  cases h : pf a with
  | none => simp [floats, h]
  | some v => simp [floats, h, hpf]

example : parseMargin (N := Int) (fun s => (parseInt s).toOption) (.str c!"1,2 3")
    = .ok [(c!"top", 1), (c!"right", 2), (c!"bottom", 3), (c!"left", 2)] := by rfl
example : sepText c!"1" [(',', c!"2"), (' ', c!"3")] = c!"1,2 3" := by rfl

end Verif
