import Verif.Spec.TableLines
import Verif.Lemmas.TableRun
import Mathlib.Tactic.Ring
import Mathlib.Tactic.Linarith
/-! The lines of a table as they are drawn (table.py:380-449) are the stretches of its borders. -/
namespace Verif
open Spec

section Stretches
variable {α : Type} [DecidableEq α]

theorem stretchesR_bounds (l : List (Option α)) : ∀ s ∈ stretchesR l, s.1 < s.2.1 ∧ s.2.1 ≤ l.length := by
  induction l with
  | nil => simp [stretchesR]
  | cons a l ih =>
    cases a with
    | none =>
      intro s hs
      have := ih s hs
      simp only [List.length_cons]
      omega
    | some a =>
      intro s hs
      unfold stretchesR at hs
      cases hr : stretchesR l with
      | nil =>
        rw [hr] at hs
        simp only [List.mem_singleton] at hs
        subst hs
        simp
      | cons p r =>
        obtain ⟨i, j, b⟩ := p
        rw [hr] at hs
        simp only at hs
        rw [hr] at ih
        have h0 := ih (i, j, b) (by simp)
        simp only at h0
        have ht : ∀ s ∈ r, s.1 < s.2.1 ∧ s.2.1 ≤ l.length := fun s hs => ih s (by simp [hs])
        simp only [List.length_cons]
        split at hs
        · rcases List.mem_cons.1 hs with rfl | hs
          · simp only; omega
          · have := ht s hs; omega
        · rcases List.mem_cons.1 hs with rfl | hs
          · simp
          · rcases List.mem_cons.1 hs with rfl | hs
            · simp only; omega
            · have := ht s hs; omega

/-- the first stretch of the list ends at the last, the others before -/
theorem stretchesR_some (a : α) (l : List (Option α)) : ∃ i L, stretchesR (some a :: l) = (i, l.length + 1, a) :: L ∧ i < l.length + 1 ∧
    ∀ s ∈ L, s.2.1 ≤ l.length := by
  have hb := stretchesR_bounds l
  unfold stretchesR
  cases hr : stretchesR l with
  | nil => exact ⟨l.length, [], rfl, by omega, by simp⟩
  | cons p r =>
    obtain ⟨i, j, b⟩ := p
    rw [hr] at hb
    have h0 := hb (i, j, b) (by simp)
    simp only at h0
    simp only
    split
    · rename_i h
      rw [h.1]
      exact ⟨i, r, rfl, by omega, fun s hs => (hb s (by simp [hs])).2⟩
    · exact ⟨l.length, _, rfl, by omega, fun s hs => (hb s hs).2⟩

/-- going on with the same entry -/
theorem stretchesR_same {a : α} {l : List (Option α)} {i : Nat} {L : List (Nat × Nat × α)}
    (h : stretchesR (some a :: l) = (i, l.length + 1, a) :: L) :
    stretchesR (some a :: some a :: l) = (i, l.length + 1 + 1, a) :: L := by
  rw [stretchesR, h]
  simp

/-- going on with another entry -/
theorem stretchesR_other {a b : α} {l : List (Option α)} (hab : b ≠ a) :
    stretchesR (some a :: some b :: l) = (l.length + 1, l.length + 1 + 1, a) :: stretchesR (some b :: l) := by
  obtain ⟨i, L, h, _⟩ := stretchesR_some b l
  rw [stretchesR, h]
  simp [hab]

theorem stretchesR_none (l : List (Option α)) : stretchesR (none :: l) = stretchesR l := rfl

/-- an entry after a gap -/
theorem stretchesR_gap (a : α) (l : List (Option α)) :
    stretchesR (some a :: none :: l) = (l.length + 1, l.length + 1 + 1, a) :: stretchesR (none :: l) := by
  have hb := stretchesR_bounds l
  rw [stretchesR]
  change (match stretchesR l with | _ => _) = _
  cases hr : stretchesR l with
  | nil => simp [stretchesR, hr]
  | cons p r =>
    obtain ⟨i, j, b⟩ := p
    rw [hr] at hb
    have h0 := hb (i, j, b) (by simp)
    simp only at h0
    simp only [stretchesR, hr]
    rw [if_neg (by simp only [List.length_cons]; omega)]
    simp

end Stretches

variable {B : Type} [DecidableEq B]

/-- the list of lines being drawn belongs to a list of borders, given backwards -/
def Track (full : Nat → Nat → Bd B → BLine B) (opn : BLine B → Nat → Bd B → Prop) (seq : List (Option (Bd B))) (l : List (BLine B))
    (int : Bool) : Prop :=
  match seq with
  | some b :: t => int = false ∧ 0 < b.width ∧ ∃ i L ln, stretchesR (some b :: t) = (i, t.length + 1, b) :: L ∧
      l = (L.map fun s => full s.1 s.2.1 s.2.2).reverse ++ [ln] ∧ opn ln i b ∧ ln.width = b.width ∧ ln.look = b.look
  | _ => int = true ∧ l = ((stretchesR seq).map fun s => full s.1 s.2.1 s.2.2).reverse

theorem Track.congr {full full' : Nat → Nat → Bd B → BLine B} {opn opn' : BLine B → Nat → Bd B → Prop} {seq : List (Option (Bd B))}
    {l : List (BLine B)} {int : Bool} (h : Track full opn seq l int)
    (hf : ∀ i j b, i < j → j < seq.length → full i j b = full' i j b) (ho : ∀ ln i b, i < seq.length → opn ln i b → opn' ln i b) :
    Track full' opn' seq l int := by
  unfold Track at h ⊢
  match seq with
  | [] => simpa [stretchesR] using h
  | none :: t =>
    simp only at h ⊢
    refine ⟨h.1, h.2.trans ?_⟩
    congr 1
    refine List.map_congr_left fun s hs => hf _ _ _ (stretchesR_bounds _ s hs).1 ?_
    have := (stretchesR_bounds t s hs).2
    simp only [List.length_cons]; omega
  | some b :: t =>
    simp only at h ⊢
    obtain ⟨h1, h2, i, L, ln, h3, h4, h5, h6⟩ := h
    have hb := stretchesR_bounds (some b :: t)
    obtain ⟨i', L', e, hi', hL⟩ := stretchesR_some b t
    rw [h3] at e
    obtain ⟨e1, e2⟩ := List.cons.inj e
    have e3 := (Prod.mk.inj e1).1
    subst e2 e3
    refine ⟨h1, h2, i, L, ln, h3, ?_, ho _ _ _ (by simpa using hi') h5, h6⟩
    rw [h4]
    congr 2
    refine List.map_congr_left fun s hs => hf _ _ _ (hb s (by rw [h3]; simp [hs])).1 ?_
    have := hL s hs
    simp only [List.length_cons]; omega

/-- the correction is half of the wider border -/
theorem Track.correction {full : Nat → Nat → Bd B → BLine B} {opn : BLine B → Nat → Bd B → Prop} {seq : List (Option (Bd B))}
    {l : List (BLine B)} {int : Bool} (h : Track full opn seq l int) (w : Rat) (hw : 0 ≤ w) :
    correction w int l = max w (bdWidth seq.head?.join) / 2 := by
  unfold Track at h
  unfold Verif.correction
  match seq with
  | [] => rw [h.1]; simp [bdWidth, max_eq_left hw]
  | none :: t => rw [h.1]; simp [bdWidth, max_eq_left hw]
  | some b :: t =>
    simp only at h ⊢
    obtain ⟨h1, h2, i, L, ln, h3, h4, h5, h6, h7⟩ := h
    rw [h1, h4]
    simp only [Bool.false_eq_true, if_false, List.getLast?_append, List.getLast?_singleton, Option.some_or, h6, gt_iff_lt, List.head?_cons,
      Option.join_some, bdWidth]
    by_cases hlt : w / 2 < b.width / 2
    · rw [if_pos hlt, max_eq_right (by linarith)]
    · rw [if_neg hlt, max_eq_left (by linarith)]

theorem modifyLast_append {α : Type} (f : α → α) (l : List α) (a : α) : modifyLast f (l ++ [a]) = l ++ [f a] := by
  induction l with
  | nil => rfl
  | cons x l ih =>
    cases l with
    | nil => rfl
    | cons y l => simp only [List.cons_append, modifyLast] at ih ⊢; rw [ih]

theorem goesOn_open {l : List (BLine B)} {ln : BLine B} {b b' : Bd B} (hw : ln.width = b.width) (hl : ln.look = b.look) :
    goesOn false (l ++ [ln]) b' = decide (b = b') := by
  unfold goesOn
  simp only [List.getLast?_append, List.getLast?_singleton, Option.some_or]
  unfold sameBorder
  rw [hw, hl]
  cases b; cases b'
  simp

/-- one more row of a vertical line -/
theorem Track.vertStep {x y vc : Rat} {Y V : Nat → Rat} {seq : List (Option (Bd B))} {v : VLine B} {left : Option (Bd B)}
    (h : Track (fun i j b => ⟨x, Y i + V i, x, some (Y j - V j), b.width, b.look⟩)
      (fun ln i _ => ln.x1 = x ∧ ln.y1 = Y i + V i ∧ ln.x2 = x) seq v.list v.interrupted)
    (hy : y = Y seq.length) (hv : vc = V seq.length) :
    Track (fun i j b => ⟨x, Y i + V i, x, some (Y j - V j), b.width, b.look⟩)
      (fun ln i _ => ln.x1 = x ∧ ln.y1 = Y i + V i ∧ ln.x2 = x) (left.bind seen :: seq) (vertStep x y vc left v).list
      (vertStep x y vc left v).interrupted := by
  obtain ⟨l, int⟩ := v
  simp only at h
  unfold Track at h
  unfold Verif.vertStep
  match seq with
  | [] =>
    obtain ⟨h1, h2⟩ := h
    subst h1 h2
    cases left with
    | none => simp [Track, stretchesR]
    | some b =>
      by_cases hb : b.width > 0
      · simp only [if_true, if_pos hb, goesOn, Bool.false_eq_true, if_false, Option.bind_some, seen, Track]
        refine ⟨trivial, hb, 0, [], _, rfl, rfl, ⟨rfl, ?_, rfl⟩, rfl, rfl⟩
        simp only [hy, hv]; rfl
      · simp [hb, Track, seen, stretchesR]
  | none :: t =>
    obtain ⟨h1, h2⟩ := h
    subst h1 h2
    cases left with
    | none => simp [Track, stretchesR]
    | some b =>
      by_cases hb : b.width > 0
      · simp only [if_true, if_pos hb, goesOn, Bool.false_eq_true, if_false, Option.bind_some, seen, Track]
        refine ⟨trivial, hb, t.length + 1, _, _, stretchesR_gap b t, rfl, ⟨rfl, ?_, rfl⟩, rfl, rfl⟩
        simp only [hy, hv, List.length_cons]
      · simp [hb, Track, seen, stretchesR]
  | some a :: t =>
    simp only at h
    obtain ⟨h1, h2, i, L, ln, h3, h4, ⟨h5, h6, h7⟩, h8, h9⟩ := h
    subst h1 h4
    have hend : ({ ln with y2 := some (y - vc) } : BLine B) = ⟨x, Y i + V i, x, some (Y (t.length + 1) - V (t.length + 1)), a.width, a.look⟩ := by
      rw [← h5, ← h6, ← h8, ← h9, hy, hv, h5, ← h7]; rfl
    cases left with
    | none =>
      simp only [Bool.false_eq_true, if_false, modifyLast_append, Option.bind_none, Track, true_and, stretchesR_none]
      rw [show stretchesR (some a :: t) = _ from h3, hend]
      simp
    | some b =>
      by_cases hb : b.width > 0
      · simp only [Bool.false_eq_true, if_false, modifyLast_append, if_pos hb, goesOn_open h8 h9, Option.bind_some, seen]
        by_cases hab : a = b
        · subst hab
          simp only [decide_true, if_true, Track]
          exact ⟨trivial, hb, i, L, _, stretchesR_same h3, rfl, ⟨h5, h6, h7⟩, h8, h9⟩
        · simp only [hab, decide_false, Bool.false_eq_true, if_false, Track]
          refine ⟨trivial, hb, t.length + 1, _, ⟨x, y + vc, x, none, b.width, b.look⟩, stretchesR_other hab, ?_, ⟨rfl, ?_, rfl⟩, rfl, rfl⟩
          · rw [h3, hend]
            simp
          · simp only [hy, hv, List.length_cons]
      · simp only [Bool.false_eq_true, if_false, modifyLast_append, if_neg hb, Option.bind_some, seen, Track, true_and, stretchesR_none]
        rw [show stretchesR (some a :: t) = _ from h3, hend]
        simp

/-- one more position of a horizontal line -/
theorem Track.topStep {ws : List Rat} {width x y hc : Rat} {c : Nat} {X H : Nat → Rat} {seq : List (Option (Bd B))} {l : List (BLine B)} {int : Bool}
    {top : Option (Bd B)}
    (h : Track (fun i j b => ⟨X i - H i, y, X j + H j, some y, b.width, b.look⟩)
      (fun ln i _ => ln.x1 = X i - H i ∧ ln.y1 = y ∧ ln.x2 = X seq.length ∧ ln.y2 = some y) seq l int)
    (hx : x = X seq.length) (hh : hc = H seq.length) (hX : top.isSome → x + ws.getD c 0 * width = X (seq.length + 1)) :
    Track (fun i j b => ⟨X i - H i, y, X j + H j, some y, b.width, b.look⟩)
      (fun ln i _ => ln.x1 = X i - H i ∧ ln.y1 = y ∧ ln.x2 = X (seq.length + 1) ∧ ln.y2 = some y) (top.bind seen :: seq)
      (topStep ws width x y hc c top l int).1 (topStep ws width x y hc c top l int).2 := by
  unfold Track at h
  unfold Verif.topStep
  match seq with
  | [] =>
    obtain ⟨h1, h2⟩ := h
    subst h1 h2
    cases top with
    | none => simp [Track, stretchesR]
    | some b =>
      by_cases hb : b.width > 0
      · simp only [if_true, if_pos hb, goesOn, Bool.false_eq_true, if_false, Option.bind_some, seen, Track]
        refine ⟨trivial, hb, 0, [], _, rfl, rfl, ⟨?_, rfl, hX rfl, rfl⟩, rfl, rfl⟩
        simp only [hx, hh]; rfl
      · simp [hb, Track, seen, stretchesR]
  | none :: t =>
    obtain ⟨h1, h2⟩ := h
    subst h1 h2
    cases top with
    | none => simp [Track, stretchesR]
    | some b =>
      by_cases hb : b.width > 0
      · simp only [if_true, if_pos hb, goesOn, Bool.false_eq_true, if_false, Option.bind_some, seen, Track]
        refine ⟨trivial, hb, t.length + 1, _, _, stretchesR_gap b t, rfl, ⟨?_, rfl, hX rfl, rfl⟩, rfl, rfl⟩
        simp only [hx, hh, List.length_cons]
      · simp [hb, Track, seen, stretchesR]
  | some a :: t =>
    simp only at h
    obtain ⟨h1, h2, i, L, ln, h3, h4, ⟨h5, h6, h7, h7'⟩, h8, h9⟩ := h
    subst h1 h4
    have hend : ({ ln with x2 := ln.x2 + hc } : BLine B) = ⟨X i - H i, y, X (t.length + 1) + H (t.length + 1), some y, a.width, a.look⟩ := by
      rw [← h5, ← h8, ← h9, h7, hh, ← h7']; subst h6; rfl
    cases top with
    | none =>
      simp only [Bool.false_eq_true, if_false, modifyLast_append, Option.bind_none, Track, true_and, stretchesR_none]
      rw [show stretchesR (some a :: t) = _ from h3, hend]
      simp
    | some b =>
      by_cases hb : b.width > 0
      · simp only [Bool.false_eq_true, if_false, modifyLast_append, if_pos hb, Option.bind_some, seen]
        rw [goesOn_open (ln := { ln with x2 := ln.x2 + hc }) h8 h9]
        by_cases hab : a = b
        · subst hab
          simp only [decide_true, if_true, Track]
          exact ⟨trivial, hb, i, L, _, stretchesR_same h3, rfl, ⟨h5, h6, hX rfl, h7'⟩, h8, h9⟩
        · simp only [hab, decide_false, Bool.false_eq_true, if_false, Track]
          refine ⟨trivial, hb, t.length + 1, _, ⟨x - hc, y, x + ws.getD c 0 * width, some y, b.width, b.look⟩, stretchesR_other hab, ?_, ⟨?_, rfl, hX rfl, rfl⟩, rfl, rfl⟩
          · rw [h3, hend]
            simp
          · simp only [hx, hh, List.length_cons]
      · simp only [Bool.false_eq_true, if_false, modifyLast_append, if_neg hb, Option.bind_some, seen, Track, true_and, stretchesR_none]
        rw [show stretchesR (some a :: t) = _ from h3, hend]
        simp

/-! ### Rows -/

/-- what `process_borders` changes -/
structure Pen (B : Type) where
  topLines : List (BLine B)
  topInt : Bool
  vert : List (VLine B)

/-- `process_borders`, table.py:393-449 -/
def Pen.step (ws : List Rat) (width x y : Rat) (c : Nat) (left top : Option (Bd B)) (p : Pen B) : Pen B :=
  let vc := Verif.correction (bdWidth top) p.topInt p.topLines
  let v := p.vert.getD c ⟨[], true⟩
  let hc := Verif.correction (bdWidth left) v.interrupted v.list
  let t := Verif.topStep ws width x y hc c top p.topLines p.topInt
  ⟨t.1, t.2, p.vert.modify c (Verif.vertStep x y vc left)⟩

/-- the vertical lines of column `c` after some rows -/
def ColTrack (X : Nat → Rat) (rows : List (GridRow B)) (c : Nat) (v : VLine B) : Prop :=
  Track (colLine X rows c) (fun ln i _ => ln.x1 = X c ∧ ln.y1 = topY rows i + cornerY rows i c ∧ ln.x2 = X c)
    (rows.map fun g => (g.lefts[c]?).bind seen).reverse v.list v.interrupted

/-- the lines above the first `c` positions of row `r` -/
def RowTrack (X : Nat → Rat) (rows : List (GridRow B)) (r : Nat) (g : GridRow B) (c : Nat) (p : Pen B) : Prop :=
  Track (rowLine X rows r) (fun ln i _ => ln.x1 = X i - cornerX rows r i ∧ ln.y1 = g.y ∧ ln.x2 = X c ∧ ln.y2 = some g.y)
    ((List.range c).map fun c => (g.tops[c]?).bind seen).reverse p.topLines p.topInt

omit [DecidableEq B] in
theorem topY_append {rows : List (GridRow B)} {g : GridRow B} {r : Nat} (h : r < rows.length) : topY (rows ++ [g]) r = topY rows r := by
  simp [topY, List.getElem?_append_left h]

omit [DecidableEq B] in
theorem topWidth_append {rows : List (GridRow B)} {g : GridRow B} {r c : Nat} (h : r < rows.length) :
    topWidth (rows ++ [g]) r c = topWidth rows r c := by
  simp [topWidth, List.getElem?_append_left h]

omit [DecidableEq B] in
theorem leftWidth_append {rows : List (GridRow B)} {g : GridRow B} {r c : Nat} (h : r < rows.length) :
    leftWidth (rows ++ [g]) r c = leftWidth rows r c := by
  simp [leftWidth, List.getElem?_append_left h]

omit [DecidableEq B] in
theorem cornerY_append {rows : List (GridRow B)} {g : GridRow B} {r c : Nat} (h : r < rows.length) :
    cornerY (rows ++ [g]) r c = cornerY rows r c := by
  simp [cornerY, topWidth_append h]

omit [DecidableEq B] in
theorem cornerX_append {rows : List (GridRow B)} {g : GridRow B} {r c : Nat} (h : r < rows.length) :
    cornerX (rows ++ [g]) r c = cornerX rows r c := by
  simp [cornerX, leftWidth_append h, leftWidth_append (show r - 1 < rows.length by omega)]

theorem ColTrack.append {X : Nat → Rat} {rows : List (GridRow B)} {c : Nat} {v : VLine B} (h : ColTrack X rows c v) (g : GridRow B) :
    Track (colLine X (rows ++ [g]) c)
      (fun ln i _ => ln.x1 = X c ∧ ln.y1 = topY (rows ++ [g]) i + cornerY (rows ++ [g]) i c ∧ ln.x2 = X c)
      (rows.map fun g => (g.lefts[c]?).bind seen).reverse v.list v.interrupted := by
  refine Track.congr h (fun i j b hi hj => ?_) (fun ln i b hi ho => ?_)
  · simp only [List.length_reverse, List.length_map] at hj
    rw [colLine, colLine, topY_append hj, cornerY_append hj, topY_append (by omega), cornerY_append (by omega)]
  · simp only [List.length_reverse, List.length_map] at hi
    rwa [topY_append hi, cornerY_append hi]

omit [DecidableEq B] in
theorem bdWidth_seen (b : Option (Bd B)) (h : 0 ≤ bdWidth b) : bdWidth (b.bind seen) = bdWidth b := by
  cases b with
  | none => rfl
  | some b =>
    simp only [bdWidth] at h
    simp only [Option.bind_some, seen]
    split
    · rfl
    · rename_i hb
      simp only [bdWidth]
      linarith

/-- what holds before column `c` of row `g` -/
structure PenInv (X : Nat → Rat) (n : Nat) (rows : List (GridRow B)) (g : GridRow B) (c : Nat) (p : Pen B) : Prop where
  len : p.vert.length = n + 1
  done : ∀ c', c' < c → c' ≤ n → ColTrack X (rows ++ [g]) c' (p.vert.getD c' ⟨[], true⟩)
  todo : ∀ c', c ≤ c' → c' ≤ n → ColTrack X rows c' (p.vert.getD c' ⟨[], true⟩)
  top : RowTrack X (rows ++ [g]) rows.length g c p

theorem head_reverse_map {α β : Type} (f : α → β) (l : List α) : ((l.map f).reverse).head? = (l.getLast?).map f := by
  simp

theorem PenInv.step {X : Nat → Rat} {n : Nat} {rows : List (GridRow B)} {g : GridRow B} {c : Nat} {p : Pen B} (h : PenInv X n rows g c p)
    (ws : List Rat) (width : Rat) (hc : c ≤ n) (hX : c < n → X c + ws.getD c 0 * width = X (c + 1)) (hn : g.tops.length = n)
    (hl : ∀ g' ∈ rows ++ [g], ∀ c : Nat, 0 ≤ bdWidth (g'.lefts[c]?)) (ht : ∀ c : Nat, 0 ≤ bdWidth (g.tops[c]?)) :
    PenInv X n rows g (c + 1) (p.step ws width (X c) g.y c (g.lefts[c]?) (g.tops[c]?)) := by
  have hv := h.todo c (Nat.le_refl c) hc
  have hlast : (rows ++ [g])[rows.length]? = some g := by simp
  have e1 : correction (bdWidth (g.lefts[c]?)) (p.vert.getD c ⟨[], true⟩).interrupted (p.vert.getD c ⟨[], true⟩).list =
      cornerX (rows ++ [g]) rows.length c := by
    rw [Track.correction hv _ (hl g (by simp) c), head_reverse_map, cornerX]
    congr 2
    · simp [leftWidth]
    · rcases List.eq_nil_or_concat rows with rfl | ⟨r, b, rfl⟩
      · simp [bdWidth]
      · simp only [List.getLast?_append, List.getLast?_singleton, Option.some_or, Option.map_some, Option.join_some, List.length_append,
          List.length_singleton, Nat.add_one_ne_zero, if_false, Nat.add_sub_cancel, List.concat_eq_append]
        rw [bdWidth_seen _ (hl b (by simp) c)]
        simp [leftWidth]
  have e2 : correction (bdWidth (g.tops[c]?)) p.topInt p.topLines = cornerY (rows ++ [g]) rows.length c := by
    rw [Track.correction h.top _ (ht c), head_reverse_map, cornerY]
    congr 2
    · simp [topWidth]
    · rw [List.getLast?_range]
      by_cases h0 : c = 0
      · simp [h0, bdWidth]
      · simp only [if_neg h0, Option.map_some, Option.join_some, topWidth, hlast, Option.bind_some]
        rw [bdWidth_seen _ (ht _)]
  have hseq : ((List.range (c + 1)).map fun c => (g.tops[c]?).bind seen).reverse =
      (g.tops[c]?).bind seen :: ((List.range c).map fun c => (g.tops[c]?).bind seen).reverse := by
    rw [List.range_succ]; simp
  refine ⟨?_, fun c' h1 h2 => ?_, fun c' h1 h2 => ?_, ?_⟩
  · simp [Pen.step, h.len]
  · by_cases hcc : c' = c
    · subst hcc
      have : (p.step ws width (X c') g.y c' (g.lefts[c']?) (g.tops[c']?)).vert.getD c' ⟨[], true⟩ =
          vertStep (X c') g.y (cornerY (rows ++ [g]) rows.length c') (g.lefts[c']?) (p.vert.getD c' ⟨[], true⟩) := by
        have hlt : c' < p.vert.length := by rw [h.len]; omega
        simp [Pen.step, List.getD_eq_getElem?_getD, hlt, e2]
      rw [this]
      unfold ColTrack
      rw [List.map_append, List.reverse_append]
      have hy : g.y = topY (rows ++ [g]) rows.length := by simp [topY]
      refine Track.vertStep (Y := topY (rows ++ [g])) (V := fun i => cornerY (rows ++ [g]) i c') (hv.append g) ?_ ?_
      · simpa using hy
      · simp
    · have : (p.step ws width (X c) g.y c (g.lefts[c]?) (g.tops[c]?)).vert.getD c' ⟨[], true⟩ = p.vert.getD c' ⟨[], true⟩ := by
        simp [Pen.step, List.getD_eq_getElem?_getD, Ne.symm hcc]
      rw [this]
      exact h.done c' (by omega) h2
  · have : (p.step ws width (X c) g.y c (g.lefts[c]?) (g.tops[c]?)).vert.getD c' ⟨[], true⟩ = p.vert.getD c' ⟨[], true⟩ := by
      simp [Pen.step, List.getD_eq_getElem?_getD, show c ≠ c' by omega]
    rw [this]
    exact h.todo c' (by omega) h2
  · unfold RowTrack
    rw [hseq]
    have hy : topY (rows ++ [g]) rows.length = g.y := by simp [topY]
    have htop := h.top
    unfold RowTrack at htop
    have hrl : rowLine X (rows ++ [g]) rows.length = fun i j b => ⟨X i - cornerX (rows ++ [g]) rows.length i, g.y,
        X j + cornerX (rows ++ [g]) rows.length j, some g.y, b.width, b.look⟩ := by
      funext i j b
      rw [rowLine, hy]
    rw [hrl] at htop ⊢
    have hlen : ((List.range c).map fun c => (g.tops[c]?).bind seen).reverse.length = c := by simp
    have hst := Track.topStep (ws := ws) (width := width) (x := X c) (y := g.y) (c := c) (X := X)
      (hc := correction (bdWidth (g.lefts[c]?)) (p.vert.getD c ⟨[], true⟩).interrupted (p.vert.getD c ⟨[], true⟩).list)
      (H := fun i => cornerX (rows ++ [g]) rows.length i) (top := g.tops[c]?)
      (seq := ((List.range c).map fun c => (g.tops[c]?).bind seen).reverse) (l := p.topLines) (int := p.topInt)
      (by rw [hlen]; exact htop) (by rw [hlen]) (by rw [hlen]; exact e1) (by
        rw [hlen]
        intro hs
        refine hX ?_
        rw [← hn]
        exact (List.getElem?_eq_some_iff.1 (Option.eq_some_of_isSome hs)).1)
    rw [hlen] at hst
    exact hst

/-- the borders of columns `c` to `n` of a row -/
def Pen.row (ws : List Rat) (width : Rat) (X : Nat → Rat) (g : GridRow B) : Nat → Nat → Pen B → Pen B
  | 0, _, p => p
  | m + 1, c, p => Pen.row ws width X g m (c + 1) (p.step ws width (X c) g.y c (g.lefts[c]?) (g.tops[c]?))

theorem PenInv.row {X : Nat → Rat} {n : Nat} {rows : List (GridRow B)} {g : GridRow B} (ws : List Rat) (width : Rat)
    (hX : ∀ c < n, X c + ws.getD c 0 * width = X (c + 1)) (hn : g.tops.length = n)
    (hl : ∀ g' ∈ rows ++ [g], ∀ c : Nat, 0 ≤ bdWidth (g'.lefts[c]?)) (ht : ∀ c : Nat, 0 ≤ bdWidth (g.tops[c]?)) :
    ∀ (m c : Nat) (p : Pen B), PenInv X n rows g c p → c + m ≤ n + 1 → PenInv X n rows g (c + m) (Pen.row ws width X g m c p)
  | 0, _, _, h, _ => h
  | m + 1, c, p, h, hm => by
    have := PenInv.row ws width hX hn hl ht m (c + 1) _ (h.step ws width (by omega) (hX c) hn hl ht) (by omega)
    rw [show c + 1 + m = c + (m + 1) by omega] at this
    exact this

/-- a whole row: its lines are the stretches of its top borders, and every column goes on -/
theorem Pen.row_all {X : Nat → Rat} {n : Nat} {rows : List (GridRow B)} {g : GridRow B} (ws : List Rat) (width : Rat)
    (hX : ∀ c < n, X c + ws.getD c 0 * width = X (c + 1)) (hn : g.tops.length = n)
    (hl : ∀ g' ∈ rows ++ [g], ∀ c : Nat, 0 ≤ bdWidth (g'.lefts[c]?)) (ht : ∀ c : Nat, 0 ≤ bdWidth (g.tops[c]?)) (vert : List (VLine B))
    (hlen : vert.length = n + 1) (hv : ∀ c ≤ n, ColTrack X rows c (vert.getD c ⟨[], true⟩)) :
    (Pen.row ws width X g (n + 1) 0 ⟨[], true, vert⟩).topLines = rowLines X (rows ++ [g]) rows.length ∧
    (Pen.row ws width X g (n + 1) 0 ⟨[], true, vert⟩).vert.length = n + 1 ∧
    ∀ c ≤ n, ColTrack X (rows ++ [g]) c ((Pen.row ws width X g (n + 1) 0 ⟨[], true, vert⟩).vert.getD c ⟨[], true⟩) := by
  have h0 : PenInv X n rows g 0 ⟨[], true, vert⟩ := by
    refine ⟨hlen, fun c' h => absurd h (by omega), fun c' _ h => hv c' h, ?_⟩
    simp [RowTrack, Track, stretchesR]
  have h := PenInv.row ws width hX hn hl ht (n + 1) 0 _ h0 (by omega)
  rw [Nat.zero_add] at h
  refine ⟨?_, h.len, fun c hc => h.done c (by omega) hc⟩
  have htop := h.top
  unfold RowTrack at htop
  have hseq : ((List.range (n + 1)).map fun c => (g.tops[c]?).bind seen).reverse = none :: (g.tops.map seen).reverse := by
    rw [List.range_succ, List.map_append, List.reverse_append, ← hn]
    simp only [List.map_cons, List.map_nil, List.reverse_cons, List.reverse_nil, List.nil_append, List.singleton_append, List.cons.injEq]
    refine ⟨by simp, ?_⟩
    congr 1
    refine List.ext_getElem (by simp) fun i h1 h2 => ?_
    simp only [List.length_map, List.length_range] at h1
    simp [h1]
  rw [hseq] at htop
  unfold Track at htop
  rw [htop.2]
  simp [rowLines, stretches, stretchesR_none, List.map_reverse]

end Verif
