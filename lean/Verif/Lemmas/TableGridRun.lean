import Verif.Lemmas.TableGridRow
import Verif.Props.C30_C32_C34_Table
/-! A run of a table, with what it draws (table.py:451-584). -/
namespace Verif
open Spec

variable {σ P B C : Type} [DecidableEq B] {T : TConf σ P B C}

theorem Pen.row_succ (ws : List Rat) (width : Rat) (X : Nat → Rat) (g : GridRow B) (m c : Nat) (p : Pen B) :
    Pen.row ws width X g (m + 1) c p =
      (Pen.row ws width X g m c p).step ws width (X (c + m)) g.y (c + m) (g.lefts[c + m]?) (g.tops[c + m]?) := by
  induction m generalizing c p with
  | zero => rfl
  | succ m ih =>
    rw [Pen.row, ih, Pen.row, show c + 1 + m = c + (m + 1) by omega]

/-- where row `r` begins, when the rows so far end at `last` -/
def yOf (rows : List (GridRow B)) (last : Rat) (r : Nat) : Rat := if r < rows.length then topY rows r else last

/-- the grid, the cells and the lines of the rows so far -/
structure GBase (T : TConf σ P B C) (x y width hh : Rat) (late : Option (List (Nat × Delayed σ C))) (base : Nat) (rows : List (GridRow B)) (cells : List (Tile C))
    (outs : List (Tile C × CellOut σ P B C)) (s : TS σ P B C) : Prop where
  sx : s.x = x
  sy : s.y = y
  sw : s.width = width
  vertLen : s.vert.length = T.cols + 1
  vert : ∀ c ≤ T.cols, ColTrack (colX T.widths x width) rows c (s.vert.getD c ⟨[], true⟩)
  sh : s.height = hh
  ran : ∀ p ∈ outs, Placed T late base p.1 (colX T.widths x width) (yOf rows (s.y - s.currentHeight)) (y - hh) rows.length p.2
  order : (outs.map Prod.fst).Sublist cells
  full : ∀ e ∈ cells, (heldAt T late base e.row e.col).content.isSome → e ∈ outs.map Prod.fst
  parts : s.parts = outs.flatMap (·.2.parts)
  lines : s.lines.Perm (outs.flatMap (·.2.lines) ++ (List.range rows.length).flatMap (rowLines (colX T.widths x width) rows))
  lens : ∀ g ∈ rows, g.tops.length = T.cols ∧ g.lefts.length = T.cols + 1
  grid : ∀ (r c : Nat) g l t, rows[r]? = some g → c < T.cols → g.lefts[c]? = some l → g.tops[c]? = some t → Drawn T base r c cells l t
  edge : ∀ (r : Nat) g, rows[r]? = some g → g.lefts[T.cols]? = some (T.border (base + r : Nat) T.cols true)
  first : yOf rows (s.y - s.currentHeight) 0 = y
  down : ∀ r < rows.length, yOf rows (s.y - s.currentHeight) (r + 1) ≤ yOf rows (s.y - s.currentHeight) r
  tiles : ∀ e ∈ cells, ∃ el, elAt T late base e.row e.col = some el ∧ ElOk T base e.row e.col el ∧ e = tileOf T base e.row e.col el
  early : ∀ e ∈ cells, e.row < rows.length ∧ e.col + e.cols < T.cols
  apart : ∀ e ∈ cells, ∀ e' ∈ cells, ∀ p q, e.Covers p q → e'.Covers p q → e = e'
  cover : ∀ p q, q < T.cols → p < rows.length → ∃ e ∈ cells, e.Covers p q
  nodup : cells.Nodup

/-- before a row -/
structure GridInv (T : TConf σ P B C) (x y width hh : Rat) (late : Option (List (Nat × Delayed σ C))) (base : Nat) (rows : List (GridRow B)) (cells : List (Tile C))
    (outs : List (Tile C × CellOut σ P B C)) (s : TS σ P B C) : Prop where
  draw : GBase T x y width hh late base rows cells outs s
  spans : SpanInv T base rows.length 0 cells { s with colspan := 0, isRowspan := false }
  fillsMem : FillInv (colX T.widths x width) (yOf rows (s.y - s.currentHeight)) rows.length 0 cells s.fillsMem
  fills : s.fills.Perm (outs.flatMap (·.2.fills) ++ (cells.filter fun e => decide (e.row + e.rows < rows.length)).filterMap
    (Tile.box (colX T.widths x width) (yOf rows (s.y - s.currentHeight)) rows.length))
  delayed : DelOk T s
  heights : HeightInv T late base (yOf rows (s.y - s.currentHeight)) rows.length 0 outs s

/-- after the last row -/
structure GDone (T : TConf σ P B C) (x y width hh : Rat) (late : Option (List (Nat × Delayed σ C))) (base : Nat) (rows : List (GridRow B)) (cells : List (Tile C))
    (outs : List (Tile C × CellOut σ P B C)) (s : TS σ P B C) : Prop where
  draw : GBase T x y width hh late base rows cells outs s
  fills : s.fills.Perm (outs.flatMap (·.2.fills) ++ cells.filterMap
    (Tile.box (colX T.widths x width) (yOf rows (s.y - s.currentHeight)) rows.length))

theorem rowLines_append {X : Nat → Rat} {rows : List (GridRow B)} {g : GridRow B} {r : Nat} (h : r < rows.length) :
    rowLines X (rows ++ [g]) r = rowLines X rows r := by
  unfold rowLines
  rw [List.getElem?_append_left h]
  refine List.map_congr_left fun s _ => ?_
  rw [rowLine, rowLine, topY_append h, cornerX_append h, cornerX_append h]

theorem rowLines_snoc (X : Nat → Rat) (rows : List (GridRow B)) (g : GridRow B) :
    (List.range (rows ++ [g]).length).flatMap (rowLines X (rows ++ [g])) =
      (List.range rows.length).flatMap (rowLines X rows) ++ rowLines X (rows ++ [g]) rows.length := by
  rw [List.length_append, List.length_singleton, List.range_succ, List.flatMap_append, List.flatMap_singleton]
  congr 1
  refine List.flatMap_congr fun r hr => ?_
  rw [rowLines_append (List.mem_range.1 hr)]

omit [DecidableEq B] in
theorem yOf_append {rows : List (GridRow B)} {g : GridRow B} {last last' : Rat} (h : g.y = last) {r : Nat} (hr : r ≤ rows.length) :
    yOf (rows ++ [g]) last' r = yOf rows last r := by
  unfold yOf
  rw [if_pos (by simp; omega)]
  by_cases hlt : r < rows.length
  · rw [if_pos hlt, topY_append hlt]
  · have : r = rows.length := by omega
    subst this
    rw [if_neg hlt, ← h]
    simp [topY]

omit [DecidableEq B] in
theorem Drawn.off_or {base r c : Nat} {cells : List (Tile C)} {l t : Bd B} (hb : ∀ i j v, 0 ≤ (T.border i j v).width) (h : Drawn T base r c cells l t) :
    0 ≤ l.width ∧ 0 ≤ t.width := by
  obtain ⟨h1, h2⟩ := h
  constructor
  · rcases h1 with ⟨-, rfl⟩ | ⟨-, rfl⟩
    · exact le_refl (0 : Rat)
    · exact hb _ _ _
  · rcases h2 with ⟨-, rfl⟩ | ⟨-, rfl⟩
    · exact le_refl (0 : Rat)
    · exact hb _ _ _

/-- the fills of a row that is done -/
theorem fills_out {X Y : Nat → Rat} {r n : Nat} {h : Rat} {cells : List (Tile C)} (hy : Y r - h = Y (r + 1)) (hc : ∀ e ∈ cells, e.col < n ∧ e.row ≤ r)
    {fm : List (Nat × TFill C)} (hf : FillInv X Y r n cells fm) (ret : Bool) :
    (((fm.map fun e => (e.1, e.2.grow h)).filter fun e => !e.2.later || !ret).map fun e => ({ e.2 with y := e.2.y - e.2.height } : TFill C)) =
      (cells.filter fun e => decide (r ≤ e.row + e.rows ∧ (e.row + e.rows ≤ r ∨ ret = false))).filterMap (Tile.box X Y (r + 1)) ∧
    FillInv X Y (r + 1) 0 (if ret then cells else []) ((fm.map fun e => (e.1, e.2.grow h)).filter fun e => e.2.later && ret) := by
  unfold FillInv at hf ⊢
  subst hf
  have hif : (if ret then cells else []) = cells.filter fun _ => ret := by cases ret <;> simp
  rw [hif]
  simp only [List.map_filterMap, List.filter_filterMap, List.filterMap_filter]
  have key : ∀ e ∈ cells, decide (r < e.row + e.rows ∨ (e.row < r ∧ n ≤ e.col)) = decide (r < e.row + e.rows) := by
    intro e he
    have := hc e he
    rw [decide_eq_decide]; omega
  constructor <;> refine filterMap_congr_mem fun e he => ?_
  · by_cases hle : r ≤ e.row + e.rows
    · rw [if_pos (by simpa using hle)]
      unfold memOf Tile.box
      cases e.color with
      | none => simp
      | some c =>
        have hgrow : Y e.row - Y r + h = Y e.row - Y (r + 1) := by rw [← hy]; ring
        have hmin : min (e.row + e.rows + 1) (r + 1) = r + 1 := by omega
        simp only [Option.map_some, TFill.grow, key e he, hgrow, Option.filter_some, hmin]
        by_cases hlt : r < e.row + e.rows
        · have hd : decide (r < e.row + e.rows) = true := by simpa using hlt
          cases ret with
          | true => simp [hlt]
          | false =>
            simp only [hd, Bool.not_true, Bool.not_false, Bool.or_true, if_true, Option.map_some, hle, true_and, or_true, decide_true]
            congr 2
            · ring
            · simp; omega
        · have hd : decide (r < e.row + e.rows) = false := by simpa using hlt
          have h1 : e.row + e.rows ≤ r := by omega
          simp only [hd, Bool.not_false, Bool.true_or, if_true, Option.map_some, hle, h1, true_or, and_self, decide_true]
          congr 2
          · ring
          · simp; omega
    · rw [if_neg (by simpa using hle), if_neg (by simp; omega)]
      rfl
  · by_cases hle : r ≤ e.row + e.rows
    · rw [if_pos (by simpa using hle)]
      unfold memOf
      cases e.color with
      | none => simp
      | some c =>
        have hgrow : Y e.row - Y r + h = Y e.row - Y (r + 1) := by rw [← hy]; ring
        simp only [Option.map_some, TFill.grow, key e he, hgrow, Option.filter_some]
        by_cases hlt : r < e.row + e.rows
        · have hd : decide (r < e.row + e.rows) = true := by simpa using hlt
          have h1 : r + 1 ≤ e.row + e.rows := by omega
          cases ret with
          | false => simp
          | true =>
            have := (hc e he).2
            have h2 : r + 1 < e.row + e.rows ∨ e.row < r + 1 ∧ 0 ≤ e.col := by omega
            simp only [hd, Bool.and_self, if_true, h1, decide_true, h2]
        · have h1 : ¬ r + 1 ≤ e.row + e.rows := by omega
          simp [hlt, h1]
    · rw [if_neg (by simpa using hle)]
      have h1 : ¬ r + 1 ≤ e.row + e.rows := by omega
      simp [h1]

omit [DecidableEq B] in
theorem dget_map_val {K V : Type} [DecidableEq K] (k : K) (d : List (K × V)) (f : V → V) : dget k (d.map fun e => (e.1, f e.2)) = (dget k d).map f := by
  induction d with
  | nil => rfl
  | cons p d ih =>
    rw [List.map_cons, dget, dget, ih]
    split <;> rfl

/-- the state at the start of a row -/
def TS.newRow (s : TS σ P B C) : TS σ P B C :=
  { s with
    maxHeight := 0
    rowMax := s.height - s.currentHeight
    colspan := 0
    topLines := []
    topInt := true
    isRowspan := false
    yAbs := s.y - s.currentHeight }

theorem addRow_split {s s' : TS σ P B C} {row : List (RowEl σ C)} {dl : Bool} {act : RowAct} (h : s.addRow T row dl = .ok (act, s')) :
    row.length = T.cols ∧ ∃ s1, s.newRow.addCells T dl 0 row = .ok s1 ∧
      ((act = .cancel ∧ s1.firstRow = true ∧ s' = { s1 with firstRow := false }) ∨
        (act = (if s1.canGoOn T then .continue else .interrupt) ∧ s' = ({ s1 with firstRow := false } : TS σ P B C).endRow T)) := by
  unfold TS.addRow at h
  split at h
  · cases h
  · rename_i hlen
    simp only at h
    split at h
    · cases h
    · rename_i s1 h1
      refine ⟨not_not.1 hlen, s1, h1, ?_⟩
      split at h
      · rename_i hc
        simp only [Except.ok.injEq, Prod.mk.injEq] at h
        exact .inl ⟨h.1.symm, hc.1, h.2.symm⟩
      · simp only [Except.ok.injEq, Prod.mk.injEq] at h
        exact .inr ⟨h.1.symm, h.2.symm⟩

omit [DecidableEq B] in
theorem SpanInv.nextRow {base r : Nat} {cells : List (Tile C)} {s s' : TS σ P B C} (h : SpanInv T base r T.cols cells s) (hi : s'.index = s.index + 1)
    (hr : s'.rowspan = s.rowspan) (hc : s'.colspan = 0) (hf : s'.isRowspan = false) : SpanInv T base (r + 1) 0 cells s' := by
  refine ⟨by rw [hi, h.index]; omega, h.nodup, ?_, h.cols, h.real, ?_, ?_, ?_, ?_, h.apart, ?_, .inl fun _ => hf⟩
  · intro e he; have := h.early e he; have := h.cols e he; omega
  · intro c k m hk
    rw [hr] at hk
    obtain ⟨e, he, a1, a2, a3, a4⟩ := h.ent c k m hk
    refine ⟨e, he, a1, a2, a3, ?_⟩
    have := h.cols e he
    rw [if_pos (by omega)] at a4
    rw [if_neg (by omega)]
    exact a4
  · intro e he hp
    rw [hr]
    refine h.pend e he ?_
    have := h.cols e he
    rw [if_neg (by omega)] at hp
    rw [if_pos (by omega)]
    exact hp
  · intro hp; omega
  · intro e he _ hlt; omega
  · intro p q hq hp
    refine h.cover p q hq ?_
    omega

omit [DecidableEq B] in
theorem SpanInv.same {base r col : Nat} {cells : List (Tile C)} {s s' : TS σ P B C} (h : SpanInv T base r col cells s) (hi : s'.index = s.index)
    (hr : s'.rowspan = s.rowspan) (hc : s'.colspan = s.colspan) (hf : s'.isRowspan = s.isRowspan) : SpanInv T base r col cells s' :=
  ⟨hi.trans h.index, h.nodup, h.early, h.cols, h.real, hr ▸ h.ent, hr ▸ h.pend, by rw [hc, hf]; exact h.opn, by rw [hc]; exact h.closed, h.apart, h.cover,
    by rw [hc, hf]; exact h.flag⟩

omit [DecidableEq B] in
theorem FillInv.congr {X Y Y' : Nat → Rat} {r col : Nat} {cells : List (Tile C)} {fm : List (Nat × TFill C)} (h : FillInv X Y r col cells fm)
    (hy : ∀ i ≤ r, Y i = Y' i) (he : ∀ e ∈ cells, e.row ≤ r) : FillInv X Y' r col cells fm := by
  unfold FillInv at h ⊢
  refine h.trans (filterMap_congr_mem fun e hm => ?_)
  have := he e (List.mem_filter.1 hm).1
  unfold memOf
  rw [hy e.row this, hy r (le_refl _)]

/-- the fixed facts about a table -/
structure TableOk (T : TConf σ P B C) : Prop where
  rects : RectsOk T.content T.cols
  flag : FlagOk T.content
  border : ∀ i j v, 0 ≤ (T.border i j v).width
  len : T.widths.length = T.cols
  sum : T.widths.sum = 1

omit [DecidableEq B] in
theorem TableOk.right (h : TableOk T) (x width : Rat) : x + width = colX T.widths x width T.cols := by
  rw [colX, ← h.len, List.take_length, h.sum]; ring

omit [DecidableEq B] in
theorem colX_next (ws : List Rat) (x width : Rat) (c : Nat) : colX ws x width c + ws.getD c 0 * width = colX ws x width (c + 1) := by
  simp only [colX, take_succ_sum]; ring

theorem colX_width (ws : List Rat) (x width : Rat) (c m : Nat) :
    cellWidth ws width c (m + 1) = colX ws x width (c + m + 1) - colX ws x width c := by
  have : (ws.take (c + (m + 1))).sum = (ws.take c).sum + ((ws.drop c).take (m + 1)).sum := by
    rw [List.take_add, List.sum_append]
  rw [cellWidth, colX, colX, show c + m + 1 = c + (m + 1) by omega, this]; ring

/-- what holds after a row that was not cancelled -/
theorem GridInv.row (hT : TableOk T) {x y width hh : Rat} {late : Option (List (Nat × Delayed σ C))} {base : Nat} {rows : List (GridRow B)} {cells : List (Tile C)}
    {outs : List (Tile C × CellOut σ P B C)} {s s' : TS σ P B C} (hi : GridInv T x y width hh late base rows cells outs s) {els : List (RowEl σ C)} {dl : Bool}
    {act : RowAct} (hdl : dl = true → rows.length = 0)
    (hel : ∀ c el, els[c]? = some el → ElOk T base rows.length c el ∧ elAt T late base rows.length c = some el)
    (h : s.addRow T els dl = .ok (act, s')) (hact : act ≠ .cancel) :
    ∃ g new outs', GBase T x y width hh late base (rows ++ [g]) (cells ++ new) (outs ++ outs') s' ∧ DelOk T s' ∧ s'.index = s.index ∧
      s'.firstRow = false ∧ (act = .continue → GridInv T x y width hh late base (rows ++ [g]) (cells ++ new) (outs ++ outs') { s' with index := s'.index + 1 }) ∧
      (act = .interrupt → GDone T x y width hh late base (rows ++ [g]) (cells ++ new) (outs ++ outs') s') := by
  obtain ⟨hlen, s1, h1, hcase⟩ := addRow_split h
  rcases hcase with ⟨hc, -⟩ | ⟨ha, hs'⟩
  · exact absurd hc hact
  have hb := hi.draw
  have hin : ∀ p ∈ outs, p.1 ∈ cells := fun p hp => hb.order.subset (List.mem_map_of_mem hp)
  have hht0 : HeightInv T late base (yOf rows (s.y - s.currentHeight)) rows.length 0 outs s.newRow :=
    ⟨hi.heights.pend, fun p _ _ hlt _ => absurd hlt (Nat.not_lt_zero _)⟩
  obtain ⟨new, lefts, tops, outs', q⟩ := cells_draw hT.rects hT.flag (late := late) (X := colX T.widths x width) (Y := yOf rows (s.y - s.currentHeight)) rfl
    (colX_width T.widths x width) (base := base) (r := rows.length) (dl := dl) els (col := 0) (cells := cells) (s := s.newRow)
    (hi.spans.same rfl rfl rfl rfl) hin hht0 hi.fillsMem (by simp [TS.newRow, yOf]) hb.sx hb.sw hdl (by omega)
    (fun k el hk => by rw [Nat.zero_add]; exact (hel k el hk).1) (fun k el hk => by rw [Nat.zero_add]; exact (hel k el hk).2) h1
  have hspans := q.spans
  have hfm := q.fillsMem
  rw [Nat.zero_add, hlen] at hspans hfm
  let g : GridRow B := ⟨s.y - s.currentHeight, tops, lefts ++ [T.border (base + rows.length : Nat) T.cols true]⟩
  have hl1 : lefts.length = T.cols := q.leftsLen.trans hlen
  have ht1 : tops.length = T.cols := q.topsLen.trans hlen
  have hidx1 : s1.index = base + rows.length := hspans.index
  -- the pen after the row
  have hpen : s'.pen = Pen.row T.widths width (colX T.widths x width) g (T.cols + 1) 0 ⟨[], true, s.vert⟩ := by
    have hp := q.pen g rfl (fun k hk => by
      rw [Nat.zero_add]
      refine ⟨?_, rfl⟩
      show (lefts ++ [_])[k]? = _
      rw [List.getElem?_append_left (by omega)])
    rw [hlen] at hp
    rw [Pen.row_succ, Nat.zero_add]
    have e1 : g.lefts[T.cols]? = some (T.border (base + rows.length : Nat) T.cols true) := by
      show (lefts ++ [_])[T.cols]? = _
      rw [← hl1, List.getElem?_append_right (le_refl _)]; simp
    have e2 : g.tops[T.cols]? = none := by
      show tops[T.cols]? = none
      rw [List.getElem?_eq_none (by omega)]
    have hw : s.newRow.width = width := hb.sw
    have hp0 : s.newRow.pen = ⟨[], true, s.vert⟩ := rfl
    rw [hw, hp0] at hp
    rw [e1, e2, ← hp, hs']
    have hx1 : s1.x = x := q.frame.x.trans hb.sx
    have hw1 : s1.width = width := q.frame.width.trans hb.sw
    have hy1 : s1.yAbs = g.y := q.frame.yAbs
    rw [← hT.right, ← hx1, ← hw1, ← hy1, ← hidx1]
    rfl
  have hdrawn : ∀ (c : Nat) l t, c < T.cols → g.lefts[c]? = some l → g.tops[c]? = some t → Drawn T base rows.length c (cells ++ new) l t := by
    intro c l t hc hl ht
    have := q.drawn c l t (by rwa [show g.lefts = lefts ++ [_] from rfl, List.getElem?_append_left (by omega)] at hl) ht
    rwa [Nat.zero_add] at this
  -- earlier rows
  have hnotc : ∀ (r c : Nat), r < rows.length → ∀ e ∈ new, ¬ e.Covers r c := by
    intro r c hr e he hc
    obtain ⟨k, el, -, rfl⟩ := q.fresh e he
    have := hc.1
    simp only [tileOf] at this
    omega
  have hgrid : ∀ (r c : Nat) g' l t, (rows ++ [g])[r]? = some g' → c < T.cols → g'.lefts[c]? = some l → g'.tops[c]? = some t →
      Drawn T base r c (cells ++ new) l t := by
    intro r c g' l t hr hc hl ht
    by_cases hlt : r < rows.length
    · rw [List.getElem?_append_left hlt] at hr
      exact (hb.grid r c g' l t hr hc hl ht).append (hnotc r c hlt)
    · rw [List.getElem?_append_right (by omega)] at hr
      have hr0 : r - rows.length = 0 := by
        by_contra hne
        rw [List.getElem?_eq_none (by simp; omega)] at hr
        cases hr
      rw [hr0] at hr
      simp only [List.getElem?_cons_zero, Option.some.injEq] at hr
      subst hr
      have : r = rows.length := by omega
      subst this
      exact hdrawn c l t hc hl ht
  have hedge : ∀ (r : Nat) g', (rows ++ [g])[r]? = some g' → g'.lefts[T.cols]? = some (T.border (base + r : Nat) T.cols true) := by
    intro r g' hr
    by_cases hlt : r < rows.length
    · rw [List.getElem?_append_left hlt] at hr
      exact hb.edge r g' hr
    · rw [List.getElem?_append_right (by omega)] at hr
      have hr0 : r - rows.length = 0 := by
        by_contra hne
        rw [List.getElem?_eq_none (by simp; omega)] at hr
        cases hr
      rw [hr0] at hr
      simp only [List.getElem?_cons_zero, Option.some.injEq] at hr
      subst hr
      have : r = rows.length := by omega
      subst this
      show (lefts ++ [_])[T.cols]? = _
      rw [← hl1, List.getElem?_append_right (le_refl _)]; simp
  have hlens : ∀ g' ∈ rows ++ [g], g'.tops.length = T.cols ∧ g'.lefts.length = T.cols + 1 := by
    intro g' hg
    rcases List.mem_append.1 hg with hg | hg
    · exact hb.lens g' hg
    · simp only [List.mem_singleton] at hg
      subst hg
      exact ⟨ht1, by show (lefts ++ [_]).length = _; simp [hl1]⟩
  have hpos : ∀ (r : Nat) g', (rows ++ [g])[r]? = some g' → ∀ c : Nat, 0 ≤ bdWidth (g'.lefts[c]?) ∧ 0 ≤ bdWidth (g'.tops[c]?) := by
    intro r g' hr c
    obtain ⟨l1, l2⟩ := hlens g' (List.mem_of_getElem? hr)
    by_cases hc : c < T.cols
    · have e1 : g'.lefts[c]? = some g'.lefts[c] := List.getElem?_eq_getElem (by omega)
      have e2 : g'.tops[c]? = some g'.tops[c] := List.getElem?_eq_getElem (by omega)
      have := (hgrid r c g' _ _ hr hc e1 e2).off_or hT.border
      rw [e1, e2]
      exact this
    · rw [show g'.tops[c]? = none from List.getElem?_eq_none (by omega)]
      refine ⟨?_, le_refl _⟩
      by_cases hc' : c = T.cols
      · rw [hc', hedge r g' hr]; exact hT.border _ _ _
      · rw [List.getElem?_eq_none (by omega)]; exact le_refl _
  obtain ⟨r1, r2, r3⟩ := Pen.row_all (X := colX T.widths x width) (n := T.cols) (rows := rows) (g := g) T.widths width
    (fun c _ => colX_next _ _ _ _) ht1
    (fun g' hg c => by
      obtain ⟨r, hr⟩ := List.getElem?_of_mem hg
      exact (hpos r g' hr c).1)
    (fun c => (hpos rows.length g (by simp) c).2) s.vert hb.vertLen hb.vert
  rw [← hpen] at r1 r2 r3
  have hfx : s'.x = x ∧ s'.y = y ∧ s'.width = width ∧ s'.currentHeight = s.currentHeight + s1.maxHeight ∧ s'.index = s.index ∧ s'.firstRow = false ∧
      s'.parts = s1.parts ∧ s'.delayed = s1.delayed ∧ s'.rowspan = s1.rowspan ∧ s'.lines = s1.lines ++ s'.topLines ∧
      s'.height = hh ∧ s'.heightsMem = s1.heightsMem.map fun e => (e.1, e.2 - s1.maxHeight) := by
    subst hs'
    refine ⟨q.frame.x.trans hb.sx, q.frame.y.trans hb.sy, q.frame.width.trans hb.sw, ?_, q.frame.index, rfl, rfl, rfl, rfl, rfl, q.frame.height.trans hb.sh, rfl⟩
    show s1.currentHeight + s1.maxHeight = _
    rw [q.frame.currentHeight]; rfl
  obtain ⟨f1, f2, f3, f4, f5, f6, f7, f8, f9, f10, f11, f12⟩ := hfx
  have hgy : g.y = s.y - s.currentHeight := rfl
  have hY : ∀ i ≤ rows.length, yOf (rows ++ [g]) (s'.y - s'.currentHeight) i = yOf rows (s.y - s.currentHeight) i := fun i hi => yOf_append hgy hi
  have hYlast : yOf (rows ++ [g]) (s'.y - s'.currentHeight) (rows.length + 1) = s'.y - s'.currentHeight := by
    unfold yOf; rw [if_neg (by simp)]
  have hYr : yOf (rows ++ [g]) (s'.y - s'.currentHeight) rows.length = s.y - s.currentHeight := by
    rw [hY _ (le_refl _)]; unfold yOf; rw [if_neg (by omega)]
  have hmax : 0 ≤ s1.maxHeight := q.height
  have hstep : yOf (rows ++ [g]) (s'.y - s'.currentHeight) rows.length - s1.maxHeight = yOf (rows ++ [g]) (s'.y - s'.currentHeight) (rows.length + 1) := by
    rw [hYlast, hYr, f4, f2, hb.sy]; ring
  have hearly : ∀ e ∈ cells ++ new, e.row ≤ rows.length := by
    intro e he; have := hspans.early e he; omega
  have hin1 : ∀ p ∈ outs ++ outs', p.1 ∈ cells ++ new := by
    intro p hp
    rcases List.mem_append.1 hp with hp | hp
    · exact List.mem_append_left _ (hin p hp)
    · exact List.mem_append_right _ (q.order.subset (List.mem_map_of_mem hp))
  have hqh := q.heights
  rw [Nat.zero_add, hlen] at hqh
  have hcl : ∀ p ∈ outs ++ outs', p.1.col < T.cols := fun p hp => by have := hspans.cols _ (hin1 p hp); omega
  have hran : ∀ p ∈ outs ++ outs', Placed T late base p.1 (colX T.widths x width) (yOf (rows ++ [g]) (s'.y - s'.currentHeight)) (y - hh) (rows ++ [g]).length p.2 := by
    intro p hp
    have hrow : p.1.row ≤ rows.length := hearly _ (hin1 p hp)
    have key : Placed T late base p.1 (colX T.widths x width) (yOf rows (s.y - s.currentHeight)) (y - hh) rows.length p.2 := by
      rcases List.mem_append.1 hp with hp | hp
      · exact hb.ran p hp
      · have h1 := q.ran p hp
        have e1 : yOf rows (s.y - s.currentHeight) rows.length - s.newRow.rowMax = y - hh := by
          rw [← hY _ (le_refl _), hYr]
          show s.y - s.currentHeight - (s.height - s.currentHeight) = _
          rw [hb.sy, hb.sh]; ring
        rwa [e1] at h1
    refine ⟨?_, fun h0 hlt => ?_⟩
    · rw [hY _ hrow]; exact key.run
    · simp only [List.length_append, List.length_singleton] at hlt
      rw [hY _ hrow]
      by_cases hold : p.1.row + p.1.rows < rows.length
      · rw [hY _ hold]; exact key.room h0 hold
      · have hlast := hqh.last p hp h0 (hcl p hp) (by omega)
        rw [show p.1.row + p.1.rows + 1 = rows.length + 1 by omega, ← hstep, hY _ (le_refl _)]
        linarith
  have hheights : HeightInv T late base (yOf (rows ++ [g]) (s'.y - s'.currentHeight)) (rows.length + 1) 0 (outs ++ outs') s' := by
    refine ⟨fun p hp h0 hle => ?_, fun p _ _ hlt _ => absurd hlt (Nat.not_lt_zero _)⟩
    rw [if_neg (by omega)] at hle
    have h1 := hqh.pend p hp h0 (by rw [if_pos (hcl p hp)]; exact hle)
    rw [f12, dget_map_val _ _ (fun v => v - s1.maxHeight), h1, ← hstep, hY _ (hearly _ (hin1 p hp)), hY _ (le_refl _)]
    simp only [Option.map_some]
    congr 1
    ring
  have hbase : GBase T x y width hh late base (rows ++ [g]) (cells ++ new) (outs ++ outs') s' := by
    refine ⟨f1, f2, f3, r2, r3, f11, ?_, ?_, ?_, ?_, ?_, hlens, hgrid, hedge, ?_, ?_, ?_, ?_, hspans.apart, ?_, hspans.nodup⟩
    · exact hran
    · rw [List.map_append]; exact hb.order.append q.order
    · intro e he hsome
      rw [List.map_append]
      rcases List.mem_append.1 he with he | he
      · exact List.mem_append_left _ (hb.full e he hsome)
      · exact List.mem_append_right _ (q.full e he hsome)
    · rw [f7, q.parts, List.flatMap_append]
      show s.parts ++ _ = _
      rw [hb.parts]
    · have r1' : s'.topLines = rowLines (colX T.widths x width) (rows ++ [g]) rows.length := r1
      rw [f10, r1', q.lines, rowLines_snoc, List.flatMap_append]
      show ((s.lines ++ _) ++ _).Perm _
      rw [List.append_assoc, List.append_assoc]
      refine (hb.lines.append_right _).trans ?_
      rw [List.append_assoc]
      refine List.Perm.append_left _ ?_
      rw [← List.append_assoc, ← List.append_assoc]
      exact List.Perm.append_right _ List.perm_append_comm
    · rw [hY 0 (Nat.zero_le _)]; exact hb.first
    · intro r hr
      simp only [List.length_append, List.length_singleton] at hr
      by_cases hlt : r < rows.length
      · rw [hY _ (by omega), hY _ (by omega)]; exact hb.down r hlt
      · have : r = rows.length := by omega
        subst this
        rw [← hstep]
        linarith
    · intro e he
      rcases List.mem_append.1 he with he | he
      · exact hb.tiles e he
      · obtain ⟨k, el, hk, rfl⟩ := q.fresh e he
        have := hel k el hk
        rw [Nat.zero_add]
        exact ⟨el, this.2, this.1, rfl⟩
    · intro e he
      have := hearly e he
      exact ⟨by simp; omega, hspans.cols e he⟩
    · intro p q' hq hp
      simp only [List.length_append, List.length_singleton] at hp
      exact hspans.cover p q' hq (by omega)
  have hdel : DelOk T s' := by
    intro c d hd
    rw [f8] at hd
    have := q.delayed (fun c d hd => hi.delayed c d hd) c d hd
    rw [f5, show s.index = s1.index from q.frame.index.symm]
    exact this
  have hfm' : FillInv (colX T.widths x width) (yOf (rows ++ [g]) (s'.y - s'.currentHeight)) rows.length T.cols (cells ++ new) s1.fillsMem :=
    hfm.congr (fun i hi => (hY i hi).symm) hearly
  obtain ⟨k1, k2⟩ := fills_out (h := s1.maxHeight) hstep (fun e he => ⟨by have := hspans.cols e he; omega, hearly e he⟩) hfm' (s1.canGoOn T)
  have hfillsEq : s'.fills = s1.fills ++ ((cells ++ new).filter fun e => decide (rows.length ≤ e.row + e.rows ∧
      (e.row + e.rows ≤ rows.length ∨ s1.canGoOn T = false))).filterMap (Tile.box (colX T.widths x width) (yOf (rows ++ [g]) (s'.y - s'.currentHeight)) (rows.length + 1)) := by
    rw [← k1, hs']
    rfl
  have hold : ((cells.filter fun e => decide (e.row + e.rows < rows.length)).filterMap
      (Tile.box (colX T.widths x width) (yOf rows (s.y - s.currentHeight)) rows.length)) =
      ((cells ++ new).filter fun e => decide (e.row + e.rows < rows.length)).filterMap
        (Tile.box (colX T.widths x width) (yOf (rows ++ [g]) (s'.y - s'.currentHeight)) (rows.length + 1)) := by
    rw [List.filter_append]
    have : new.filter (fun e => decide (e.row + e.rows < rows.length)) = [] := by
      rw [List.filter_eq_nil_iff]
      intro e he
      obtain ⟨k, el, -, rfl⟩ := q.fresh e he
      simp [tileOf]
    rw [this, List.append_nil]
    refine filterMap_congr_mem fun e he => ?_
    have hlt : e.row + e.rows < rows.length := by simpa using (List.mem_filter.1 he).2
    unfold Tile.box
    rw [show min (e.row + e.rows + 1) rows.length = e.row + e.rows + 1 by omega, show min (e.row + e.rows + 1) (rows.length + 1) = e.row + e.rows + 1 by omega,
      hY _ (by omega), hY _ (by omega)]
    have : decide (rows.length ≤ e.row + e.rows) = decide (rows.length + 1 ≤ e.row + e.rows) := by rw [decide_eq_decide]; omega
    rw [this]
  have hfills1 : s'.fills.Perm ((outs ++ outs').flatMap (·.2.fills) ++ (((cells ++ new).filter fun e => decide (e.row + e.rows < rows.length)).filterMap
        (Tile.box (colX T.widths x width) (yOf (rows ++ [g]) (s'.y - s'.currentHeight)) (rows.length + 1)) ++
      ((cells ++ new).filter fun e => decide (rows.length ≤ e.row + e.rows ∧
      (e.row + e.rows ≤ rows.length ∨ s1.canGoOn T = false))).filterMap (Tile.box (colX T.widths x width) (yOf (rows ++ [g]) (s'.y - s'.currentHeight)) (rows.length + 1)))) := by
    rw [hfillsEq, q.fills, ← hold, List.flatMap_append]
    show ((s.fills ++ _) ++ _).Perm _
    rw [← List.append_assoc]
    refine List.Perm.append_right _ ?_
    refine (hi.fills.append_right _).trans ?_
    rw [List.append_assoc, List.append_assoc]
    exact List.Perm.append_left _ List.perm_append_comm
  have hsplit : ∀ (p q : Tile C → Bool) (f : Tile C → Option (TFill C)) (l : List (Tile C)), (∀ e ∈ l, ¬ (p e = true ∧ q e = true)) →
      ((l.filter p).filterMap f ++ (l.filter q).filterMap f).Perm ((l.filter fun e => p e || q e).filterMap f) := by
    intro p q f l hpq
    rw [← List.filterMap_append]
    refine List.Perm.filterMap _ ?_
    induction l with
    | nil => simp
    | cons a l ih =>
      have ih := ih fun e he => hpq e (List.mem_cons_of_mem _ he)
      have ha := hpq a (by simp)
      cases hp : p a <;> cases hq : q a
      · simpa [hp, hq] using ih
      · simp only [List.filter_cons, hp, hq, Bool.false_eq_true, if_false, if_true, Bool.false_or]
        exact List.perm_middle.trans (ih.cons a)
      · simp only [List.filter_cons, hp, hq, Bool.false_eq_true, if_false, if_true, Bool.true_or, List.cons_append]
        exact ih.cons a
      · exact absurd ⟨hp, hq⟩ ha
  have hfills2 := hfills1.trans (List.Perm.append_left _ (hsplit _ _ _ _ fun e _ he => by
    simp only [decide_eq_true_eq] at he
    omega))
  refine ⟨g, new, outs', hbase, hdel, f5, f6, fun hc => ?_, fun hc => ?_⟩
  · have hgo : s1.canGoOn T = true := by
      by_contra hne
      rw [if_neg hne] at ha
      rw [ha] at hc; cases hc
    rw [hgo] at k2 hfills2
    refine ⟨⟨f1, f2, f3, hbase.vertLen, hbase.vert, hbase.sh, hbase.ran, hbase.order, hbase.full, hbase.parts, hbase.lines, hlens, hgrid, hedge, hbase.first, hbase.down, hbase.tiles, hbase.early,
      hbase.apart, hbase.cover, hbase.nodup⟩, ?_, ?_, ?_, ?_, ?_⟩
    · rw [List.length_append, List.length_singleton]
      exact hspans.nextRow (by show s'.index + 1 = _; rw [f5, show s.index = s1.index from q.frame.index.symm]) f9 rfl rfl
    · rw [List.length_append, List.length_singleton]
      simp only [if_true] at k2
      show FillInv _ _ _ _ _ s'.fillsMem
      have : s'.fillsMem = (s1.fillsMem.map fun e => (e.1, e.2.grow s1.maxHeight)).filter fun e => e.2.later && true := by
        rw [hs', ← hgo]; rfl
      rw [this]
      exact k2
    · rw [List.length_append, List.length_singleton]
      refine hfills2.trans (List.Perm.append_left _ (List.Perm.of_eq ?_))
      congr 1
      refine List.filter_congr fun e _ => ?_
      simp only [Bool.true_eq_false, or_false]
      rw [← Bool.decide_or, decide_eq_decide]
      omega
    · intro c d hd
      have := hdel c d hd
      exact ⟨this.1, by show d.row ≤ s'.index + 1; omega, this.2.2⟩
    · rw [List.length_append, List.length_singleton]
      exact ⟨hheights.pend, hheights.last⟩
  · have hgo : s1.canGoOn T = false := by
      by_contra hne
      rw [if_pos (by simpa using hne)] at ha
      rw [ha] at hc; cases hc
    rw [hgo] at hfills2
    refine ⟨hbase, hfills2.trans (List.Perm.append_left _ (List.Perm.of_eq ?_))⟩
    rw [List.length_append, List.length_singleton]
    congr 1
    rw [List.filter_eq_self]
    intro e _
    simp only [or_true, and_true]
    rw [← Bool.decide_or, decide_eq_true_eq]
    omega

end Verif
