import Verif.Lemmas.TableGridEnd
import Verif.Props.C29_C33_Cells
/-!
# C66: the lines and the fills of a table

Every run of a table draws the borders of its rows and columns, one line for each stretch of equal borders, with ends that meet in the
corners, and not inside merged cells; and it fills every coloured cell over all its rows. -/
namespace Verif
open Spec

variable {σ P B C : Type} [DecidableEq B] {T : TConf σ P B C}

omit [DecidableEq B] in
theorem tileOf_eq {late : Option (List (Nat × Delayed σ C))} {base r c : Nat} {el : RowEl σ C} (h : elAt T late base r c = some el) :
    tileOf T base r c el = tileAt T late base r c := by
  have cell : ∀ el', (T.content[base + r]?.bind (·[c]?)).map RowEl.cell = some el' → tileOf T base r c el' = match cellAt T.content (base + r) c with
      | some cell => ⟨r, c, cell.rows, cell.cols, cell.style.fill.or (T.fillDef (base + r : Nat) c)⟩
      | none => ⟨r, c, 0, 0, T.style.fill.or (T.fillDef (base + r : Nat) c)⟩ := by
    intro el' hel
    obtain ⟨o, ho, rfl⟩ := Option.map_eq_some_iff.1 hel
    have : cellAt T.content (base + r) c = o := by unfold cellAt; rw [ho]; rfl
    rw [this]
    cases o with
    | none => simp [tileOf, TConf.element, Delayed.rowsLeft]
    | some cell => simp [tileOf, TConf.element, Delayed.rowsLeft]
  unfold elAt at h
  unfold tileAt
  cases late with
  | none => simp only at h ⊢; exact cell el h
  | some l =>
    cases r with
    | succ r => simp only at h ⊢; exact cell el h
    | zero =>
      simp only [Option.some.injEq] at h ⊢
      subst h
      cases hd : dget c l with
      | none => simp [tileOf, TConf.element, Delayed.rowsLeft]
      | some d =>
        cases hc : d.content <;>
          simp only [tileOf, TConf.element, Delayed.rowsLeft, Nat.add_zero, hc, Option.isSome_some, Option.isSome_none, if_true, Bool.false_eq_true, if_false,
            Tile.mk.injEq, true_and, and_true] <;> omega

omit [DecidableEq B] in
theorem topY_yOf (rows : List (GridRow B)) (g : GridRow B) (i : Nat) (hi : i ≤ rows.length) : topY (rows ++ [g]) i = yOf rows g.y i := by
  unfold yOf
  by_cases h : i < rows.length
  · rw [if_pos h, topY_append h]
  · have : i = rows.length := by omega
    subst this
    rw [if_neg h]
    simp [topY]

theorem RunGrid.drawing (hT : TableOk T) {x y width hh : Rat} {late : Option (List (Nat × Delayed σ C))} {base : Nat} {rows : List (GridRow B)} {cells : List (Tile C)}
    {outs : List (Tile C × CellOut σ P B C)} {s : TS σ P B C} (h : RunGrid T x y width hh late base rows cells outs s) :
    Drawing T (colX T.widths x width) y late base (s.close T).index (y - (s.close T).currentHeight) (y - hh) (rows ++ [closingRow T s]) cells outs (s.close T).parts
      (s.close T).lines (s.close T).fills := by
  have hb := h.draw.draw
  obtain ⟨a0, a1, a2, a3, a4, a5, a6⟩ := close_draw hT hb
  have hlen : (rows ++ [closingRow T s]).length - 1 = rows.length := by simp
  have hlt : ∀ r, r + 1 < (rows ++ [closingRow T s]).length ↔ r < rows.length := by intro r; simp
  have hgy : (closingRow T s).y = s.y - s.currentHeight := rfl
  have hrow : ∀ r, r < rows.length → (rows ++ [closingRow T s])[r]? = rows[r]? := fun r hr => List.getElem?_append_left hr
  refine ⟨?_, ?_, ⟨by simp, ?_⟩, ?_, ?_, ?_, hb.nodup, ?_, ?_, ?_, ?_, ?_, ?_, ?_, ?_, hb.order, hb.full, ?_, a0, ?_⟩
  · rw [topY_yOf _ _ _ (Nat.zero_le _), hgy]; exact hb.first
  · intro r hr
    have hr := (hlt r).1 hr
    rw [topY_yOf _ _ _ (by omega), topY_yOf _ _ _ (by omega), hgy]
    exact hb.down r hr
  · rw [hlen, a6, topY_yOf _ _ _ (le_refl _), hgy, hb.sy]
    unfold yOf
    rw [if_neg (by omega)]
  · rw [hlen, a3]; exact h.index
  · intro r c hr hc
    obtain ⟨e, he, hcv⟩ := hb.cover r c hc ((hlt r).1 hr)
    exact ⟨e, he, hcv, fun e' he' hcv' => hb.apart e' he' e he r c hcv' hcv⟩
  · intro e he
    rw [hlt]
    exact hb.early e he
  · intro e he
    obtain ⟨el, h1, h2, h3⟩ := hb.tiles e he
    exact h3.trans (tileOf_eq h1)
  · intro r c cell hr hl hc hcell
    obtain ⟨e, he, hcv⟩ := hb.cover r c hc ((hlt r).1 hr)
    obtain ⟨el, h1, ⟨o1, o2, o3, -⟩, h3⟩ := hb.tiles e he
    have heq : e = tileAt T late base e.row e.col := h3.trans (tileOf_eq h1)
    have hrows : e.rows = ((T.element (base + e.row) el).rowsLeft (base + e.row)).toNat := congrArg Tile.rows h3
    have hcols : e.cols = (T.element (base + e.row) el).cols := congrArg Tile.cols h3
    have hrl : (T.element (base + e.row) el).rowsLeft (base + e.row) =
      ((T.element (base + e.row) el).rows : Int) - (base + e.row : Nat) + (T.element (base + e.row) el).row := rfl
    obtain ⟨v1, v2, v3, v4⟩ := hcv
    have hrow0 : late = none ∨ 0 < e.row → (T.element (base + e.row) el).row = base + e.row := by
      intro hl'
      have : ∃ o, el = .cell o := by
        unfold elAt at h1
        rcases hl' with rfl | hl'
        · obtain ⟨o, -, rfl⟩ := Option.map_eq_some_iff.1 h1
          exact ⟨o, rfl⟩
        · obtain ⟨k, hk⟩ : ∃ k, e.row = k + 1 := ⟨e.row - 1, by omega⟩
          rw [hk] at h1
          cases late <;> (simp only at h1; obtain ⟨o, -, rfl⟩ := Option.map_eq_some_iff.1 h1; exact ⟨o, rfl⟩)
      obtain ⟨o, rfl⟩ := this
      cases o <;> rfl
    have hneg : (T.element (base + e.row) el).row = base + e.row ∨ e.row < r := by
      rcases hl with hl | hl
      · exact .inl (hrow0 (.inl hl))
      · by_cases h0 : 0 < e.row
        · exact .inl (hrow0 (.inr h0))
        · exact .inr (by omega)
    have hpos : e.row = r ∧ e.col = c := by
      rcases o2 with ⟨z1, z2⟩ | ⟨c', c1, c2, c3⟩
      · omega
      · have := hT.rects.apart _ _ c' (base + r) c cell (base + r) c c1 hcell (by omega) (by omega) (by omega) (by omega) (by omega) (by omega) (by omega) (by omega)
        omega
    rw [hpos.1, hpos.2] at heq
    rw [← heq]
    exact he
  · intro r c hr hc
    have hr := (hlt r).1 hr
    rw [hrow r hr]
    have hg : rows[r]? = some rows[r] := List.getElem?_eq_getElem hr
    obtain ⟨l1, l2⟩ := hb.lens rows[r] (List.getElem_mem hr)
    have e1 : rows[r].lefts[c]? = some rows[r].lefts[c] := List.getElem?_eq_getElem (by omega)
    have e2 : rows[r].tops[c]? = some rows[r].tops[c] := List.getElem?_eq_getElem (by omega)
    refine ⟨rows[r].lefts[c], ?_, (hb.grid r c _ _ _ hg hc e1 e2).1⟩
    rw [hg, Option.bind_some, e1]
  · intro r c hr hc
    have hr := (hlt r).1 hr
    rw [hrow r hr]
    have hg : rows[r]? = some rows[r] := List.getElem?_eq_getElem hr
    obtain ⟨l1, l2⟩ := hb.lens rows[r] (List.getElem_mem hr)
    have e1 : rows[r].lefts[c]? = some rows[r].lefts[c] := List.getElem?_eq_getElem (by omega)
    have e2 : rows[r].tops[c]? = some rows[r].tops[c] := List.getElem?_eq_getElem (by omega)
    refine ⟨rows[r].tops[c], ?_, (hb.grid r c _ _ _ hg hc e1 e2).2⟩
    rw [hg, Option.bind_some, e2]
  · intro r hr
    have hr := (hlt r).1 hr
    rw [hrow r hr]
    have hg : rows[r]? = some rows[r] := List.getElem?_eq_getElem hr
    rw [hg, Option.bind_some]
    exact hb.edge r _ hg
  · intro g hg
    rcases List.mem_append.1 hg with hg | hg
    · exact (hb.lens g hg).1
    · simp only [List.mem_singleton] at hg
      subst hg
      simp [closingRow]
  · intro g hg
    simp only [List.getLast?_append, List.getLast?_singleton, Option.some_or, Option.some.injEq] at hg
    subst hg
    rw [a3]
    exact ⟨rfl, rfl⟩
  · intro p hp
    have h1 := hb.ran p hp
    have h2 := (hb.early p.1 (hb.order.subset (List.mem_map_of_mem hp))).1
    rw [hlen]
    refine ⟨?_, fun h0 hlt => ?_⟩
    · rw [topY_yOf _ _ _ (by omega), hgy]; exact h1.run
    · rw [topY_yOf _ _ _ (by omega), topY_yOf _ _ _ (by omega), hgy]; exact h1.room h0 hlt
  · rw [a2]; exact hb.parts
  · rw [a1, hlen]
    refine h.draw.fills.trans (List.Perm.append_left _ (List.Perm.of_eq ?_))
    refine filterMap_congr_mem fun e he => ?_
    have := (hb.early e he).1
    unfold Tile.box
    rw [topY_yOf _ _ _ (by omega), topY_yOf _ _ _ (by omega), hgy]

theorem runs_between (hT : TableOk T) (rects : List (Rat × Rat × Rat × Rat)) {s s' : TS σ P B C} {ps : List P} (hs : Between T s)
    (h : s.runs T rects = .ok (ps, s')) : Between T s' := by
  induction rects generalizing s ps with
  | nil =>
    simp only [TS.runs, Except.ok.injEq, Prod.mk.injEq] at h
    exact h.2 ▸ hs
  | cons r l ih =>
    obtain ⟨x, y, w, hh⟩ := r
    simp only [TS.runs] at h
    cases h1 : s.run T x y w hh with
    | error e => rw [h1] at h; cases h
    | ok s1 =>
      rw [h1] at h
      simp only at h
      cases h2 : s1.runs T l with
      | error e => rw [h2] at h; cases h
      | ok q =>
        obtain ⟨ps', s2⟩ := q
        rw [h2] at h
        simp only [Except.ok.injEq, Prod.mk.injEq] at h
        obtain ⟨-, rfl⟩ := h
        exact ih (run_draw hT hs h1).1 h2

/-- **C66.** For every table with cells that do not overlap and stay in it, with borders of any width, after any number of runs: the
next run draws nothing (only possible for its first row), or it draws rows from the next one on, one below the other. The contents of its
cells are run once each, inside of the borders and margins of their cells, whose rows are high enough for them (C83). Its lines are
those of the contents of its cells and, for each row and each column, one line for each stretch of equal borders, from corner to
corner; the borders are the ones defined, except inside merged cells. Its fills are those of the contents and one box for every
coloured cell, as wide as its columns and as high as its rows in this run. Left out (`FlagOk`): tables with both a cell of one column
and more than two rows, and a cell of more than one column. -/
theorem C66_lines_and_fills_partial (T : TConf σ P B C) (hrects : RectsOk T.content T.cols) (hflag : FlagOk T.content) (hborder : ∀ i j v, 0 ≤ (T.border i j v).width)
    (given : Option (List Rat)) (hcols : 0 < T.cols) (hwidths : tableWidths T.cols given = .ok T.widths)
    (x0 y0 w0 h0 : Rat) (rects : List (Rat × Rat × Rat × Rat)) (ps : List P) (s s' : TS σ P B C)
    (hs : (TS.new x0 y0 w0 h0).runs T rects = .ok (ps, s)) (x y w h : Rat) (hr : s.run T x y w h = .ok s') :
    (s.firstRow = true ∧ s'.parts = [] ∧ s'.lines = [] ∧ s'.fills = []) ∨
    ∃ rows cells outs, Drawing T (colX T.widths x w) y (if s.delayed.isEmpty then none else some s.delayed) s.index s'.index (y - s'.currentHeight) (y - h)
      rows cells outs s'.parts s'.lines s'.fills := by
  obtain ⟨w1, w2, -⟩ := C32_widths_normalised _ _ _ hwidths hcols
  have hT : TableOk T := ⟨hrects, hflag, hborder, w1, w2⟩
  have hbtw := runs_between hT rects (between_new T x0 y0 w0 h0) hs
  rcases (run_draw hT hbtw hr).2 with h1 | ⟨rows, cells, outs, s2, hg, hi, rfl⟩
  · exact .inl h1
  · exact .inr ⟨_, cells, outs, hg.drawing hT⟩

/-! ### a table -/

/-- contents of lines of 10 points; borders with a number as their look -/
def gridExec (c : Str) (_x _y _w h : Rat) : Except PyErr (CellOut Str Str Nat Nat) :=
  let n := (h / 10).floor.toNat
  .ok ⟨[c.take n], [], [], 10 * (c.take n).length, (c.drop n).isEmpty, c.drop n⟩

/-- cells without margins, white unless they have a colour -/
def gridTable (content : List (List (Option (Cell Str Nat)))) (border : Int → Int → Bool → Bd Nat) : TConf Str Str Nat Nat :=
  ⟨content, 3, [1 / 3, 1 / 3, 1 / 3], border, fun _ _ => none, ⟨0, 0, 0, 0, none⟩, [], gridExec⟩

def gridCell (rows cols : Nat) (fill : Option Nat) : Option (Cell Str Nat) := some ⟨some c!"a", cols, rows, ⟨0, 0, 0, 0, fill⟩⟩

/-- the lines and fills of the first run in a rectangle of height `h` -/
def gridDrawn (content : List (List (Option (Cell Str Nat)))) (border : Int → Int → Bool → Bd Nat) (h : Rat) : Option (List (BLine Nat) × List (TFill Nat)) :=
  match (TS.new 0 h 90 h : TS Str Str Nat Nat).run (gridTable content border) 0 h 90 h with
  | .ok s => some (s.lines, s.fills)
  | .error _ => none

/-- a cell of two rows and two columns beside others -/
def gridSquare : List (List (Option (Cell Str Nat))) :=
  [[gridCell 1 1 (some 7), none, gridCell 0 0 none], [none, none, gridCell 0 0 (some 8)], [gridCell 0 0 none, gridCell 0 1 none, none]]

/-- the third column has a thick border at its left in the first row -/
def gridBorder (i : Int) (j : Int) (v : Bool) : Bd Nat := if v && i == 0 && j == 2 then ⟨2, 1⟩ else ⟨1, 0⟩

/-- the lines: those of the rows from the top, then those of the columns; the inside of the cells is free, and the line between the
first two columns and the third one changes where its border does -/
example : (gridDrawn gridSquare gridBorder 100).map Prod.fst = some
    [⟨-1 / 2, 100, 181 / 2, some 100, 1, 0⟩, ⟨59, 89, 181 / 2, some 89, 1, 0⟩, ⟨-1 / 2, 78, 181 / 2, some 78, 1, 0⟩, ⟨-1 / 2, 67, 181 / 2, some 67, 1, 0⟩,
      ⟨0, 201 / 2, 0, some (133 / 2), 1, 0⟩, ⟨30, 157 / 2, 30, some (133 / 2), 1, 0⟩, ⟨60, 201 / 2, 60, some (177 / 2), 2, 1⟩,
      ⟨60, 179 / 2, 60, some (155 / 2), 1, 0⟩, ⟨90, 201 / 2, 90, some (133 / 2), 1, 0⟩] := by
  decide +kernel

/-- the fills: the big cell over its two rows, and the other one -/
example : (gridDrawn gridSquare gridBorder 100).map Prod.snd = some [⟨0, 78, 60, 22, 7, false⟩, ⟨60, 78, 30, 11, 8, false⟩] := by
  decide +kernel

/-- with room for little more than one row, the big cell is filled down to the end of what is drawn -/
example : (gridDrawn gridSquare gridBorder 15).map Prod.snd = some [⟨0, 0, 60, 15, 7, false⟩, ⟨60, 0, 30, 4, 8, false⟩] := by
  decide +kernel

/-- the cells of a table are found where its rows say -/
theorem gridSquare_cells {i j : Nat} {c : Cell Str Nat} (h : cellAt gridSquare i j = some c) :
    (i, j, c.rows, c.cols) ∈ ([(0, 0, 1, 1), (0, 2, 0, 0), (1, 2, 0, 0), (2, 0, 0, 0), (2, 1, 0, 1)] : List (Nat × Nat × Nat × Nat)) := by
  rcases i with _ | _ | _ | i <;> rcases j with _ | _ | _ | j <;> simp [cellAt, gridSquare, gridCell] at h ⊢ <;> subst h <;> simp

/-- the hypotheses hold of this table -/
example : RectsOk gridSquare 3 ∧ FlagOk gridSquare ∧ tableWidths 3 none = .ok [1 / 3, 1 / 3, 1 / 3] := by
  refine ⟨⟨fun i j c i' j' c' p q h h' => ?_, fun i j c h => ?_⟩, .inl fun i j c h => ?_, by decide +kernel⟩
  · have h := gridSquare_cells h
    have h' := gridSquare_cells h'
    simp only [List.mem_cons, List.not_mem_nil, or_false, Prod.mk.injEq] at h h'
    omega
  · have h := gridSquare_cells h
    simp only [List.mem_cons, List.not_mem_nil, or_false, Prod.mk.injEq] at h
    simp only [gridSquare, List.length_cons, List.length_nil]
    omega
  · have h := gridSquare_cells h
    simp only [List.mem_cons, List.not_mem_nil, or_false, Prod.mk.injEq] at h
    omega

/-! ### the rest fails -/

/-- a cell of one column and three rows, beside it a cell of two columns in the second row -/
def gridTall : List (List (Option (Cell Str Nat))) :=
  [[gridCell 2 0 none, gridCell 0 0 none, gridCell 0 0 none], [none, gridCell 0 1 none, none], [none, gridCell 0 0 none, gridCell 0 0 none]]

theorem gridTall_cells {i j : Nat} {c : Cell Str Nat} (h : cellAt gridTall i j = some c) :
    (i, j, c.rows, c.cols) ∈ ([(0, 0, 2, 0), (0, 1, 0, 0), (0, 2, 0, 0), (1, 1, 0, 1), (2, 1, 0, 0), (2, 2, 0, 0)] : List (Nat × Nat × Nat × Nat)) := by
  rcases i with _ | _ | _ | i <;> rcases j with _ | _ | _ | j <;> simp [cellAt, gridTall, gridCell] at h ⊢ <;> subst h <;> simp

/-- **C66, the rest is false** (`is_span`, table.py:649-656): the flag `is_rowspan`, set when the code passes under the cell of
three rows, is still set at the cell of two columns, and so its upper border is missing over its second column, although all borders
are one point wide and no cell is there. -/
theorem C66_line_missing : RectsOk gridTall 3 ∧ ∃ lines fills, gridDrawn gridTall (fun _ _ _ => ⟨1, 0⟩) 100 = some (lines, fills) ∧
    (∃ l ∈ lines, l.y1 = 89 ∧ l.y2 = some 89 ∧ l.x1 ≤ 30 ∧ 60 ≤ l.x2) ∧ ∀ l ∈ lines, l.y1 = 89 → l.y2 = some 89 → ¬ 61 ≤ l.x2 := by
  refine ⟨⟨fun i j c i' j' c' p q h h' => ?_, fun i j c h => ?_⟩, ?_⟩
  · have h := gridTall_cells h
    have h' := gridTall_cells h'
    simp only [List.mem_cons, List.not_mem_nil, or_false, Prod.mk.injEq] at h h'
    omega
  · have h := gridTall_cells h
    simp only [List.mem_cons, List.not_mem_nil, or_false, Prod.mk.injEq] at h
    simp only [gridTall, List.length_cons, List.length_nil]
    omega
  · have key : (gridDrawn gridTall (fun _ _ _ => ⟨1, 0⟩) 100).any (fun r =>
        r.1.any (fun l => l.y1 = 89 ∧ l.y2 = some 89 ∧ l.x1 ≤ 30 ∧ 60 ≤ l.x2) && r.1.all fun l => l.y1 = 89 → l.y2 = some 89 → ¬ 61 ≤ l.x2) = true := by
      decide +kernel
    cases hg : gridDrawn gridTall (fun _ _ _ => ⟨1, 0⟩) 100 with
    | none => rw [hg] at key; cases key
    | some r =>
      rw [hg, Option.any_some, Bool.and_eq_true, List.any_eq_true, List.all_eq_true] at key
      obtain ⟨⟨l, hl, h1⟩, h2⟩ := key
      exact ⟨r.1, r.2, rfl, ⟨l, hl, of_decide_eq_true h1⟩, fun l hl => of_decide_eq_true (h2 l hl)⟩

end Verif
