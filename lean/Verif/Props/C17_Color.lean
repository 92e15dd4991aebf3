import Verif.Props.C15_Margin
import Verif.Model.Color
import Verif.Spec.Hex
import Verif.Lemmas.Content
import Mathlib.Algebra.Order.Field.Rat
import Mathlib.Algebra.Order.Field.Basic
/-! C17: colour specifications. -/
namespace Verif
open Spec

theorem hexTable_digit : ∀ p ∈ hexTable, hexDigit p.1 = some p.2 ∧ p.1 ≠ '_' ∧ p.1 ≠ 'x' ∧ p.1 ≠ 'X'
    ∧ p.1 ≠ '-' ∧ p.1 ≠ '+' ∧ isSpace p.1 = false ∧ p.2 < 16 := by decide

theorem HexString.lt {s : Str} {vs : List Nat} (h : HexString s vs) : ∀ v ∈ vs, v < 16 := by
  induction h with
  | nil => simp
  | cons h _ ih =>
    intro w hw
    rcases List.mem_cons.1 hw with rfl | hw
    · exact (hexTable_digit _ h).2.2.2.2.2.2.2
    · exact ih w hw

theorem hexGo_hex {s : Str} {vs : List Nat} (h : HexString s vs) : ∀ (acc : Nat) (ok : Bool),
    (s = [] → ok = true) → hexGo acc ok s = some (vs.foldl (fun a v => 16 * a + v) acc) := by
  induction h with
  | nil => intro acc ok h; simp [hexGo, h rfl]
  | @cons c v s vs h _ ih =>
    intro acc ok _
    have hc := hexTable_digit _ h
    rw [hexGo.eq_3 _ _ _ _ (by intro h'; exact hc.2.1 h')]
    simp only [hc.1]
    rw [ih _ true (fun _ => rfl)]
    rfl

theorem strip_hex {s : Str} {vs : List Nat} (h : HexString s vs) : strip s = s := by
  have hs : ∀ c ∈ s, isSpace c = false := by
    induction h with
    | nil => simp
    | cons h _ ih =>
      intro c hc
      rcases List.mem_cons.1 hc with rfl | hc
      · exact (hexTable_digit _ h).2.2.2.2.2.2.1
      · exact ih c hc
  have e : ∀ t : Str, (∀ c ∈ t, isSpace c = false) → t.dropWhile isSpace = t := by
    intro t ht
    cases t with
    | nil => rfl
    | cons a t => simp [ht a (by simp)]
  rw [strip, e s hs, e _ (by simpa using hs), List.reverse_reverse]

theorem hexInt_hex {s : Str} {vs : List Nat} (h : HexString s vs) (hne : s ≠ []) :
    hexInt s = some ((vs.foldl (fun a v => 16 * a + v) 0 : Nat) : Int) := by
  rw [hexInt, strip_hex h]
  have hn : hexNat s = some (vs.foldl (fun a v => 16 * a + v) 0) := by
    unfold hexNat
    split
    · cases h with
      | cons _ h => cases h with
        | cons h _ => exact absurd rfl (hexTable_digit _ h).2.2.1
    · cases h with
      | cons _ h => cases h with
        | cons h _ => exact absurd rfl (hexTable_digit _ h).2.2.2.1
    · exact hexGo_hex h 0 false (fun h => absurd h hne)
  split
  · cases h with
    | cons h _ => exact absurd rfl (hexTable_digit _ h).2.2.2.2.1
  · cases h with
    | cons h _ => exact absurd rfl (hexTable_digit _ h).2.2.2.2.2.1
  · rw [hn]; rfl

/-- no colour name starts with `#` -/
theorem no_hash_name : ∀ p ∈ colorTable, p.1.head? ≠ some '#' := by decide +kernel

theorem find_hash (s : Str) (h : s.head? = some '#') : colorTable.find? (fun p => p.1 = s) = none := by
  rw [List.find?_eq_none]
  intro p hp
  simp only [decide_eq_true_eq]
  rintro rfl
  exact no_hash_name p hp h

theorem channel_two {a b : Char} {v w : Nat} (h1 : (a, v) ∈ hexTable) (h2 : (b, w) ∈ hexTable) :
    channel [a, b] = .ok (mkRat (16 * v + w : Nat) 255) := by
  rw [channel, hexInt_hex (.cons h1 (.cons h2 .nil)) (by simp)]
  simp

/-- C17, `#rgb` and `#rgba`: each digit is doubled, alpha is ignored. -/
theorem C17_hex_short (pf : Str → Option Rat) (s : Str) (r g b : Nat) (rest : List Nat)
    (hr : rest.length ≤ 1) (h : HexString s (r :: g :: b :: rest)) :
    parseColor pf (.str ('#' :: s)) =
      .ok (some [mkRat (17 * r : Nat) 255, mkRat (17 * g : Nat) 255, mkRat (17 * b : Nat) 255]) := by
  have hx := hexInt_hex h (by intro e; subst e; cases h)
  cases h with
  | cons h1 h => cases h with
  | cons h2 h => cases h with
  | @cons c3 v3 s3 vs3 h3 h =>
  have hl : s3.length ≤ 1 := by
    have : s3.length = rest.length := by
      clear hr hx
      induction h with
      | nil => rfl
      | cons _ _ ih => simp [ih]
    omega
  simp only [parseColor]
  rw [if_neg (by simp), find_hash _ rfl]
  simp only
  rw [if_pos ⟨rfl, by simp only [List.length_cons]; omega⟩, parseHexColor]
  rw [if_neg (by simp [hx]), if_pos (by simp only [List.length_cons]; omega)]
  simp only [slice, List.take, List.drop, List.cons_append, List.nil_append, channels,
    channel_two h1 h1, channel_two h2 h2, channel_two h3 h3]
  simp only [← Nat.succ_mul]

/-- C17, `#rrggbb` and `#rrggbbaa`: two digits per channel, alpha is ignored. -/
theorem C17_hex_long (pf : Str → Option Rat) (s : Str) (r r' g g' b b' : Nat) (rest : List Nat)
    (hr : rest.length = 0 ∨ rest.length = 2) (h : HexString s (r :: r' :: g :: g' :: b :: b' :: rest)) :
    parseColor pf (.str ('#' :: s)) = .ok (some [mkRat (16 * r + r' : Nat) 255,
      mkRat (16 * g + g' : Nat) 255, mkRat (16 * b + b' : Nat) 255]) := by
  have hx := hexInt_hex h (by intro e; subst e; cases h)
  cases h with
  | cons h1 h => cases h with
  | cons h2 h => cases h with
  | cons h3 h => cases h with
  | cons h4 h => cases h with
  | cons h5 h => cases h with
  | @cons c6 v6 s6 vs6 h6 h =>
  have hl : s6.length = 0 ∨ s6.length = 2 := by
    have : s6.length = rest.length := by
      clear hr hx
      induction h with
      | nil => rfl
      | cons _ _ ih => simp [ih]
    omega
  simp only [parseColor]
  rw [if_neg (by simp), find_hash _ rfl]
  simp only
  rw [if_pos ⟨rfl, by simp only [List.length_cons]; omega⟩, parseHexColor]
  rw [if_neg (by simp [hx]), if_neg (by simp only [List.length_cons]; omega)]
  simp only [slice, List.take, List.drop, channels,
    channel_two h1 h2, channel_two h3 h4, channel_two h5 h6]

/-- a component between black and white -/
def InUnit (x : Rat) : Prop := 0 ≤ x ∧ x ≤ 1

theorem mkRat_unit {n d : Nat} (hd : 0 < d) (h : n ≤ d) : InUnit (mkRat n d) := by
  rw [Rat.mkRat_eq_div]
  have hd' : (0 : Rat) < (d : Rat) := by exact_mod_cast hd
  constructor
  · exact div_nonneg (by exact_mod_cast Nat.zero_le n) hd'.le
  · rw [div_le_one hd']
    exact_mod_cast h

/-- C17: the channels of a hexadecimal colour lie between 0 and 1. -/
theorem C17_hex_in_unit (v w : Nat) (hv : v < 16) (hw : w < 16) :
    InUnit (mkRat (16 * v + w : Nat) 255) ∧ InUnit (mkRat (17 * v : Nat) 255) :=
  ⟨mkRat_unit (by omega) (by omega), mkRat_unit (by omega) (by omega)⟩

theorem color_table_ok : ∀ p ∈ colorTable, p.1 ≠ [] ∧ p.2.1 ≤ 1000 ∧ p.2.2.1 ≤ 1000 ∧ p.2.2.2 ≤ 1000 ∧
    colorTable.find? (fun q => q.1 = p.1) = some p := by decide +kernel

/-- C17: every named colour gives its entry of the table, a triple between 0 and 1. -/
theorem C17_named (pf : Str → Option Rat) (name : Str) (r g b : Nat)
    (h : (name, r, g, b) ∈ colorTable) :
    parseColor pf (.str name) = .ok (some [mkRat r 1000, mkRat g 1000, mkRat b 1000]) ∧
      InUnit (mkRat r 1000) ∧ InUnit (mkRat g 1000) ∧ InUnit (mkRat b 1000) := by
  obtain ⟨h1, h2, h3, h4, h5⟩ := color_table_ok _ h
  refine ⟨?_, mkRat_unit (by omega) h2, mkRat_unit (by omega) h3, mkRat_unit (by omega) h4⟩
  simp only [parseColor]
  rw [if_neg h1, h5]

/-- C17: a number is a gray level; the empty string and `None` are no colour. -/
theorem C17_number_and_none (pf : Str → Option Rat) :
    (∀ n, parseColor pf (.num n) = .ok (some [n])) ∧ parseColor pf (.str []) = .ok none ∧
      parseColor pf .none = .ok none := ⟨fun _ => rfl, rfl, rfl⟩

/-- C17: a list of one or three numbers is that colour. -/
theorem C17_lists (pf : Str → Option Rat) (x y z : Rat) :
    parseColor pf (.seq [.num x]) = .ok (some [x]) ∧
      parseColor pf (.seq [.num x, .num y, .num z]) = .ok (some [x, y, z]) := ⟨rfl, rfl⟩

/-- the number that a component of a list is: itself, or the text of a number -/
inductive Component (pf : Str → Option Rat) : ColorElem → Rat → Prop
  | num (x : Rat) : Component pf (.num x) x
  | text (s : Str) (x : Rat) (h : pf s = some x) : Component pf (.str s) x

/-- C17: a list of one or three components, each a number or the text of one, is the colour of these numbers -/
theorem C17_components (pf : Str → Option Rat) (a b c : ColorElem) (x y z : Rat) (ha : Component pf a x) (hb : Component pf b y) (hc : Component pf c z) :
    parseColor pf (.seq [a]) = .ok (some [x]) ∧ parseColor pf (.seq [a, b, c]) = .ok (some [x, y, z]) := by
  have h : ∀ {e : ColorElem} {v : Rat}, Component pf e v → elemFloat pf e = some v := by
    intro e v h
    cases h with
    | num => rfl
    | text s x h => exact h
  simp [parseColor, parseColorSeq, elemFloats, h ha, h hb, h hc]

/-- C17: a component that is neither is refused -/
theorem C17_component_refused (pf : Str → Option Rat) (a b c : ColorElem) (h : (∀ x, ¬ Component pf a x) ∨ (∀ x, ¬ Component pf b x) ∨ ∀ x, ¬ Component pf c x) :
    ∃ e, parseColor pf (.seq [a, b, c]) = .error e := by
  have hn : ∀ {e : ColorElem}, (∀ x, ¬ Component pf e x) → elemFloat pf e = none := by
    intro e h
    cases e with
    | num x => exact absurd (.num x) (h x)
    | str s =>
      cases hs : pf s with
      | none => exact hs
      | some v => exact absurd (.text s v hs) (h v)
    | other => rfl
  simp only [parseColor, parseColorSeq, elemFloats]
  rcases h with h | h | h
  · rw [hn h]; cases elemFloat pf b <;> cases elemFloat pf c <;> exact ⟨_, rfl⟩
  · rw [hn h]; cases elemFloat pf a <;> cases elemFloat pf c <;> exact ⟨_, rfl⟩
  · rw [hn h]; cases elemFloat pf a <;> cases elemFloat pf b <;> exact ⟨_, rfl⟩

/-- C17: a text that is no name of a colour and does not begin with `#`, and is three numbers with a comma or a space between them, is their colour -/
theorem C17_text (pf : Str → Option Rat) (a b c : Str) (d e : Char) (x y z : Rat) (hd : d = ',' ∨ d = ' ') (he : e = ',' ∨ e = ' ')
    (ha : (',' ∉ a ∧ ' ' ∉ a) ∧ pf a = some x) (hb : (',' ∉ b ∧ ' ' ∉ b) ∧ pf b = some y) (hc : (',' ∉ c ∧ ' ' ∉ c) ∧ pf c = some z)
    (hn : ∀ p ∈ colorTable, p.1 ≠ a ++ d :: (b ++ e :: c)) (hh : a.head? ≠ some '#') :
    parseColor pf (.str (a ++ d :: (b ++ e :: c))) = .ok (some [x, y, z]) := by
  have h1 : splitCommaSpace (a ++ d :: (b ++ e :: c)) = [a, b, c] := by
    rw [splitCS_append ha.1 hd, splitCS_append hb.1 he, splitCS_free hc.1]
  have h2 : colorTable.find? (fun p => p.1 = a ++ d :: (b ++ e :: c)) = none := by
    rw [List.find?_eq_none]
    exact fun p hp => by simpa using hn p hp
  have h3 : (a ++ d :: (b ++ e :: c)).head? ≠ some '#' := by
    cases a with
    | nil => rcases hd with rfl | rfl <;> simp
    | cons u l => simpa using hh
  simp only [parseColor]
  rw [if_neg (by simp), h2]
  dsimp only
  rw [if_neg (fun h => h3 h.1), h1]
  simp [parseColorSeq, elemFloats, elemFloat, ha.2, hb.2, hc.2]

example : parseColor (fun s => if s = c!"0.5" then some (1 / 2) else if s = c!"1" then some 1 else none) (.str c!"1,0.5 1") = .ok (some [1, 1 / 2, 1]) :=
  C17_text _ c!"1" c!"0.5" c!"1" ',' ' ' _ _ _ (.inl rfl) (.inr rfl) ⟨by decide, rfl⟩ ⟨by decide, rfl⟩ ⟨by decide, rfl⟩ (by decide +kernel) (by decide)

/-- a list with a text in it -/
example : parseColor (fun s => if s = c!"0.5" then some (1 / 2) else none) (.seq [.num 1, .str c!"0.5", .num 0]) = .ok (some [1, 1 / 2, 0]) :=
  (C17_components _ _ _ _ _ _ _ (.num 1) (.text _ _ rfl) (.num 0)).2

theorem elemFloats_length (pf : Str → Option Rat) : ∀ (l : List ColorElem) (vs : List Rat),
    elemFloats pf l = .ok vs → vs.length = l.length := by
  intro l
  induction l with
  | nil => intro vs h; simp [elemFloats] at h; simp [h]
  | cons c l ih =>
    intro vs h
    unfold elemFloats at h
    split at h
    · cases h
    · cases h
    · rename_i v vs' _ hvs
      cases h
      simp [ih vs' hvs]

theorem parseColorSeq_length (pf : Str → Option Rat) (l : List ColorElem) (vs : List Rat)
    (h : parseColorSeq pf l = .ok (some vs)) : vs.length = 1 ∨ vs.length = 3 ∨ vs.length = 4 := by
  unfold parseColorSeq at h
  split at h
  · split at h
    · cases h; simp
    · cases h
  · split at h
    · rename_i ws hw
      cases h
      simp [elemFloats_length pf _ _ hw]
    · cases h
  · split at h
    · rename_i ws hw
      cases h
      simp [elemFloats_length pf _ _ hw]
    · cases h
  · cases h

theorem channels_length {a b c : Str} {vs : List Rat} (h : channels a b c = .ok (some vs)) :
    vs.length = 3 := by
  unfold channels at h
  split at h
  · cases h
  · split at h
    · cases h
    · split at h
      · cases h
      · cases h; rfl

/-- every accepted colour has one, three or four components -/
theorem parseColor_length (pf : Str → Option Rat) (c : ColorIn) (vs : List Rat)
    (h : parseColor pf c = .ok (some vs)) : vs.length = 1 ∨ vs.length = 3 ∨ vs.length = 4 := by
  cases c with
  | none => cases h
  | num n => cases h; simp
  | seq l => exact parseColorSeq_length pf l vs h
  | other => cases h
  | str s =>
    simp only [parseColor] at h
    split at h
    · cases h
    · split at h
      · cases h; simp
      · split at h
        · simp only [parseHexColor] at h
          split at h
          · cases h
          · split at h
            · right; left; exact channels_length h
            · right; left; exact channels_length h
        · exact parseColorSeq_length pf _ vs h

/-- C17, writing, partial: an accepted colour of one or three components is written as the PDF colour
operator with those components (`g`/`G`, `rg`/`RG`); no colour writes nothing. Missing: four-component
colours, which are accepted but cannot be written (`C17_writable_false`). -/
theorem C17_writable_partial (pf : Str → Option Rat) (fmt : Rat → Str) (hfmt : ∀ x, NumText (fmt x))
    (c : ColorIn) (col : Option (List Rat)) (stroke : Bool) (h : parseColor pf c = .ok col)
    (h4 : ∀ l ∈ col, l.length ≠ 4) :
    ∃ s, (PDFColor.mk col stroke).str fmt = .ok s ∧
      opsOf (bytesOf s) = some (match col with
        | none => []
        | some l => [⟨l.map fun x => .num (bytesOf (fmt x)),
            if l.length = 1 then (if stroke then b!"G" else b!"g")
            else (if stroke then b!"RG" else b!"rg")⟩]) := by
  cases col with
  | none => exact ⟨[], rfl, OpsTo.nil.ops⟩
  | some l =>
    have hl : l.length = 1 ∨ l.length = 3 := by
      have := parseColor_length pf c l h
      have := h4 l rfl
      omega
    match l, hl with
    | [x], _ =>
      refine ⟨numsOp [fmt x] (if stroke then c!"G" else c!"g"), rfl, ?_⟩
      cases stroke
      · exact (numsOp_ops (l := [fmt x]) (w := c!"g") (by simp [hfmt]) (by decide) (by decide)).ops
      · exact (numsOp_ops (l := [fmt x]) (w := c!"G") (by simp [hfmt]) (by decide) (by decide)).ops
    | [x, y, z], _ =>
      refine ⟨numsOp [fmt x, fmt y, fmt z] (if stroke then c!"RG" else c!"rg"), rfl, ?_⟩
      cases stroke
      · exact (numsOp_ops (l := [fmt x, fmt y, fmt z]) (w := c!"rg") (by simp [hfmt]) (by decide)
          (by decide)).ops
      · exact (numsOp_ops (l := [fmt x, fmt y, fmt z]) (w := c!"RG") (by simp [hfmt]) (by decide)
          (by decide)).ops

/-- C17 is false in general: a list of four numbers is accepted but writing it raises `TypeError`. -/
theorem C17_writable_false (pf : Str → Option Rat) (fmt : Rat → Str) (a b c d : Rat) (stroke : Bool) :
    parseColor pf (.seq [.num a, .num b, .num c, .num d]) = .ok (some [a, b, c, d]) ∧
      (PDFColor.mk (some [a, b, c, d]) stroke).str fmt = .error .typeError := ⟨rfl, rfl⟩

/-- C17 is false in general: `#-12345` is accepted although it is not a hexadecimal colour, and its
first channel is negative; and a list of two numbers is silently taken as no colour. -/
theorem C17_bad_accepted (pf : Str → Option Rat) (x y : Rat) :
    parseColor pf (.str c!"#-12345") = .ok (some [mkRat (-1) 255, mkRat 35 255, mkRat 69 255]) ∧
      ¬ InUnit (mkRat (-1) 255) ∧ parseColor pf (.seq [.num x, .num y]) = .ok none := by
  refine ⟨?_, ?_, rfl⟩
  · simp only [parseColor]
    rw [if_neg (by simp), find_hash _ rfl]
    simp only
    rw [if_pos (by decide)]
    decide +kernel
  · unfold InUnit
    decide +kernel

example : parseColor (fun _ => none) (.str c!"#F80") = .ok (some [1, mkRat 136 255, 0]) := by
  decide +kernel
example : HexString c!"F80" [15, 8, 0] :=
  .cons (by decide) (.cons (by decide) (.cons (by decide) .nil))
example : (c!"orange", 1000, 648, 0) ∈ colorTable := by decide +kernel

end Verif
