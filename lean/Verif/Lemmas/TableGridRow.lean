import Verif.Lemmas.TableGrid
/-! Rows of cells, with what they draw (table.py:525-584). -/
namespace Verif
open Spec

variable {σ P B C : Type} [DecidableEq B] {T : TConf σ P B C}

/-! ### Fills -/

/-- the entry of `fills_mem` of a cell, before column `col` of row `r` -/
def memOf (X Y : Nat → Rat) (r col : Nat) (e : Tile C) : Option (Nat × TFill C) :=
  e.color.map fun c => (e.col, ⟨X e.col, Y e.row, X (e.col + e.cols + 1) - X e.col, Y e.row - Y r, c,
    decide (r < e.row + e.rows ∨ (e.row < r ∧ col ≤ e.col))⟩)

/-- the fills in memory are those of the cells of the row -/
def FillInv (X Y : Nat → Rat) (r col : Nat) (cells : List (Tile C)) (fm : List (Nat × TFill C)) : Prop :=
  fm = (cells.filter fun e => decide (r ≤ e.row + e.rows)).filterMap (memOf X Y r col)

theorem filterMap_congr_mem {α β : Type} {f g : α → Option β} {l : List α} (h : ∀ a ∈ l, f a = g a) : l.filterMap f = l.filterMap g := by
  induction l with
  | nil => rfl
  | cons a l ih =>
    rw [List.filterMap_cons, List.filterMap_cons, h a (by simp), ih fun b hb => h b (by simp [hb])]

omit [DecidableEq B] in
theorem FillInv.below {X Y : Nat → Rat} {base r col : Nat} {cells : List (Tile C)} {s : TS σ P B C} (hs : SpanInv T base r col cells s)
    (h : FillInv X Y r col cells s.fillsMem) {k m : Nat} (hr : dget col s.rowspan = some (k, m)) :
    FillInv X Y r (col + 1) cells (if k = 1 then s.fillsMem.map fun e => if e.1 = col then (e.1, { e.2 with later := false }) else e else s.fillsMem) := by
  obtain ⟨e, he, e1, e2, e3, e4⟩ := hs.ent col k m hr
  rw [if_neg (by omega)] at e4
  have hlt : e.row < r := by
    rcases hs.early e he with h1 | h1
    · exact h1
    · omega
  have hcov : e.Covers r col := ⟨by omega, by omega, by omega, by omega⟩
  have huniq : ∀ e' ∈ cells, r ≤ e'.row + e'.rows → e'.col = col → e' = e := fun e' he' h1 h2 =>
    hs.apart e' he' e he r col ⟨by have := hs.early e' he'; omega, h1, by omega, by omega⟩ hcov
  unfold FillInv at h ⊢
  by_cases hk : k = 1
  · rw [if_pos hk, h, List.map_filterMap]
    refine filterMap_congr_mem fun e' he' => ?_
    rw [List.mem_filter] at he'
    have hle : r ≤ e'.row + e'.rows := by simpa using he'.2
    unfold memOf
    rw [Option.map_map]
    cases e'.color with
    | none => rfl
    | some c =>
      simp only [Option.map_some, Function.comp_apply, Option.some.injEq]
      by_cases hcol : e'.col = col
      · have := huniq e' he'.1 hle hcol
        subst this
        rw [if_pos hcol]
        have : decide (r < e'.row + e'.rows ∨ e'.row < r ∧ col + 1 ≤ e'.col) = false := by
          rw [decide_eq_false_iff_not]; omega
        rw [this]
      · rw [if_neg hcol]
        have : (r < e'.row + e'.rows ∨ e'.row < r ∧ col + 1 ≤ e'.col) ↔ (r < e'.row + e'.rows ∨ e'.row < r ∧ col ≤ e'.col) := by omega
        simp only [this]
  · rw [if_neg hk, h]
    refine filterMap_congr_mem fun e' he' => ?_
    rw [List.mem_filter] at he'
    have hle : r ≤ e'.row + e'.rows := by simpa using he'.2
    unfold memOf
    have : (r < e'.row + e'.rows ∨ e'.row < r ∧ col + 1 ≤ e'.col) ↔ (r < e'.row + e'.rows ∨ e'.row < r ∧ col ≤ e'.col) := by
      by_cases hcol : e'.col = col
      · have := huniq e' he'.1 hle hcol
        subst this
        omega
      · omega
    simp only [this]

omit [DecidableEq B] in
theorem FillInv.beside {X Y : Nat → Rat} {base r col : Nat} {cells : List (Tile C)} {s : TS σ P B C} (hs : SpanInv T base r col cells s)
    (h : FillInv X Y r col cells s.fillsMem) (hr : dget col s.rowspan = none) : FillInv X Y r (col + 1) cells s.fillsMem := by
  unfold FillInv at h ⊢
  refine h.trans (filterMap_congr_mem fun e' he' => ?_)
  rw [List.mem_filter] at he'
  have hle : r ≤ e'.row + e'.rows := by simpa using he'.2
  have hne : e'.col ≠ col := by
    intro hc
    obtain ⟨k, hk⟩ := hs.pend e' he'.1 (by rw [hc, if_neg (by omega)]; exact hle)
    rw [hc, hr] at hk
    cases hk
  unfold memOf
  have : (r < e'.row + e'.rows ∨ e'.row < r ∧ col + 1 ≤ e'.col) ↔ (r < e'.row + e'.rows ∨ e'.row < r ∧ col ≤ e'.col) := by omega
  simp only [this]

omit [DecidableEq B] in
theorem FillInv.start {X Y : Nat → Rat} {base r col : Nat} {cells : List (Tile C)} {s : TS σ P B C} (hs : SpanInv T base r col cells s)
    (h : FillInv X Y r col cells s.fillsMem) (hr : dget col s.rowspan = none) (hc : s.colspan = 0) (rows cols : Nat) (color : Option C) (w : Rat)
    (hw : w = X (col + cols + 1) - X col) :
    FillInv X Y r (col + 1) (cells ++ [⟨r, col, rows, cols, color⟩]) (match color with
      | none => s.fillsMem
      | some f => dset col ⟨X col, Y r, w, 0, f, decide (0 < rows)⟩ s.fillsMem) := by
  have h' := h.beside hs hr
  have hfree := hs.notCovered hr hc
  unfold FillInv at h' ⊢
  have hact : ([⟨r, col, rows, cols, color⟩] : List (Tile C)).filter (fun e => decide (r ≤ e.row + e.rows)) = [⟨r, col, rows, cols, color⟩] := by simp
  rw [List.filter_append, List.filterMap_append, hact, ← h']
  cases color with
  | none => simp [memOf]
  | some f =>
    have habs : dget col s.fillsMem = none := by
      rw [dget_eq_none]
      intro hm
      obtain ⟨q, hq, hq1⟩ := List.mem_map.1 hm
      rw [h] at hq
      obtain ⟨e, he, hee⟩ := List.mem_filterMap.1 hq
      rw [List.mem_filter] at he
      have hle : r ≤ e.row + e.rows := by simpa using he.2
      unfold memOf at hee
      cases hcl : e.color with
      | none => rw [hcl] at hee; cases hee
      | some c =>
        rw [hcl] at hee
        simp only [Option.map_some, Option.some.injEq] at hee
        rw [← hee] at hq1
        exact hfree e he.1 ⟨by have := hs.early e he.1; omega, hle, by omega, by omega⟩
    simp only
    rw [dset_of_none habs]
    simp only [memOf, List.filterMap_cons, Option.map_some, List.filterMap_nil, sub_self, hw, lt_irrefl, false_and, or_false]
    congr 5
    apply propext
    omega

/-! ### The cells of a row -/

/-- a style of a cell of the content, or of the table -/
def StyleOk (T : TConf σ P B C) (st : CellStyle C) : Prop := st = T.style ∨ ∃ i j cell, cellAt T.content i j = some cell ∧ st = cell.style

/-- the elements of the rows of a run -/
def ElOk (T : TConf σ P B C) (base r c : Nat) (el : RowEl σ C) : Prop :=
  (T.element (base + r) el).row ≤ base + r ∧
  (((T.element (base + r) el).rows = 0 ∧ (T.element (base + r) el).cols = 0) ∨
    ∃ cell, cellAt T.content (T.element (base + r) el).row c = some cell ∧ cell.rows = (T.element (base + r) el).rows ∧
      cell.cols = (T.element (base + r) el).cols) ∧
  (r = 0 ∨ (T.element (base + r) el).row = base + r) ∧ StyleOk T (T.element (base + r) el).style

/-- the delayed cells are cells of the content, or blank -/
def DelOk (T : TConf σ P B C) (s : TS σ P B C) : Prop :=
  ∀ c d, dget c s.delayed = some d → c < T.cols ∧ d.row ≤ s.index ∧
    ((d.rows = 0 ∧ d.cols = 0) ∨ ∃ cell, cellAt T.content d.row c = some cell ∧ cell.rows = d.rows ∧ cell.cols = d.cols) ∧ StyleOk T d.style

/-- the tile of an element -/
def tileOf (T : TConf σ P B C) (base r c : Nat) (el : RowEl σ C) : Tile C :=
  ⟨r, c, ((T.element (base + r) el).rowsLeft (base + r)).toNat, (T.element (base + r) el).cols,
    (T.element (base + r) el).style.fill.or (T.fillDef (base + r : Nat) c)⟩

/-- the element that a position of a run comes from -/
def elAt (T : TConf σ P B C) (late : Option (List (Nat × Delayed σ C))) (base r c : Nat) : Option (RowEl σ C) :=
  match late, r with
  | some d, 0 => some (.late (dget c d))
  | _, _ => (T.content[base + r]?.bind (·[c]?)).map .cell

omit [DecidableEq B] in
theorem heldAt_el {late : Option (List (Nat × Delayed σ C))} {base r c : Nat} {el : RowEl σ C} (h : elAt T late base r c = some el) :
    heldAt T late base r c = ⟨(T.element (base + r) el).content, (T.element (base + r) el).style, (T.element (base + r) el).row + (T.element (base + r) el).rows + 1⟩ := by
  have cell : ∀ el', (T.content[base + r]?.bind (·[c]?)).map RowEl.cell = some el' → (match cellAt T.content (base + r) c with
      | some cell => (⟨cell.content, cell.style, base + r + cell.rows + 1⟩ : Held σ C)
      | none => ⟨some T.blank, T.style, base + r + 1⟩) =
      ⟨(T.element (base + r) el').content, (T.element (base + r) el').style, (T.element (base + r) el').row + (T.element (base + r) el').rows + 1⟩ := by
    intro el' hel
    obtain ⟨o, ho, rfl⟩ := Option.map_eq_some_iff.1 hel
    have : cellAt T.content (base + r) c = o := by unfold cellAt; rw [ho]; rfl
    rw [this]
    cases o <;> rfl
  unfold elAt at h
  unfold heldAt
  cases late with
  | none => simp only at h ⊢; exact cell el h
  | some l =>
    cases r with
    | succ r => simp only at h ⊢; exact cell el h
    | zero =>
      simp only [Option.some.injEq] at h ⊢
      subst h
      cases hd : dget c l with
      | none => rfl
      | some d => cases hc : d.content <;> simp [TConf.element, hc]

/-- what the cells of a run that are not finished, or are finished in this row, need below the top of the row; before column `col` of row `r` -/
structure HeightInv (T : TConf σ P B C) (late : Option (List (Nat × Delayed σ C))) (base : Nat) (Y : Nat → Rat) (r col : Nat)
    (outs : List (Tile C × CellOut σ P B C)) (s : TS σ P B C) : Prop where
  pend : ∀ p ∈ outs, 0 < p.2.height → (if p.1.col < col then r + 1 else r) ≤ p.1.row + p.1.rows →
    dget p.1.col s.heightsMem = some (p.2.height + (padTop T late base p.1 + padBottom T late base p.1) - (Y p.1.row - Y r))
  last : ∀ p ∈ outs, 0 < p.2.height → p.1.col < col → p.1.row + p.1.rows = r →
    p.2.height + (padTop T late base p.1 + padBottom T late base p.1) - (Y p.1.row - Y r) ≤ s.maxHeight

omit [DecidableEq B] in
theorem vpad_eq {late : Option (List (Nat × Delayed σ C))} {base r c : Nat} {el : RowEl σ C} (h : elAt T late base r c = some el) :
    vpad T (base + r) c (T.element (base + r) el) = padTop T late base (tileOf T base r c el) + padBottom T late base (tileOf T base r c el) := by
  unfold vpad padTop padBottom
  simp only [tileOf, heldAt_el h]
  have : ((base + r : Nat) : Int) + (T.element (base + r) el).rowsLeft (base + r) + 1 = (((T.element (base + r) el).row + (T.element (base + r) el).rows + 1 : Nat) : Int) := by
    unfold Delayed.rowsLeft
    push_cast
    ring
  rw [this]

omit [DecidableEq B] in
theorem Drawn.append {base r col : Nat} {cells new : List (Tile C)} {l t : Bd B} (h : Drawn T base r col cells l t)
    (hn : ∀ e ∈ new, ¬ e.Covers r col) : Drawn T base r col (cells ++ new) l t := by
  have e1 : InsideLeft (cells ++ new) r col ↔ InsideLeft cells r col := by
    constructor
    · rintro ⟨e, he, hc, hl⟩
      rcases List.mem_append.1 he with he | he
      · exact ⟨e, he, hc, hl⟩
      · exact absurd hc (hn e he)
    · rintro ⟨e, he, hc⟩; exact ⟨e, List.mem_append_left _ he, hc⟩
  have e2 : InsideTop (cells ++ new) r col ↔ InsideTop cells r col := by
    constructor
    · rintro ⟨e, he, hc, hl⟩
      rcases List.mem_append.1 he with he | he
      · exact ⟨e, he, hc, hl⟩
      · exact absurd hc (hn e he)
    · rintro ⟨e, he, hc⟩; exact ⟨e, List.mem_append_left _ he, hc⟩
  unfold Drawn at h ⊢
  rw [e1, e2]
  exact h

/-- the result of some cells of a row -/
structure CellsDraw (T : TConf σ P B C) (late : Option (List (Nat × Delayed σ C))) (X Y : Nat → Rat) (base r col : Nat) (els : List (RowEl σ C))
    (cells new : List (Tile C)) (lefts tops : List (Bd B)) (outs0 outs : List (Tile C × CellOut σ P B C)) (s s' : TS σ P B C) : Prop where
  frame : CellFrame s s'
  spans : SpanInv T base r (col + els.length) (cells ++ new) s'
  fillsMem : FillInv X Y r (col + els.length) (cells ++ new) s'.fillsMem
  leftsLen : lefts.length = els.length
  topsLen : tops.length = els.length
  drawn : ∀ (k : Nat) l t, lefts[k]? = some l → tops[k]? = some t → Drawn T base r (col + k) (cells ++ new) l t
  fresh : ∀ e ∈ new, ∃ k el, els[k]? = some el ∧ e = tileOf T base r (col + k) el
  pen : ∀ g : GridRow B, g.y = s.yAbs → (∀ k < els.length, g.lefts[col + k]? = lefts[k]? ∧ g.tops[col + k]? = tops[k]?) →
    s'.pen = Pen.row T.widths s.width X g els.length col s.pen
  ran : ∀ p ∈ outs, Placed T late base p.1 X Y (Y r - s.rowMax) r p.2
  order : (outs.map Prod.fst).Sublist new
  full : ∀ e ∈ new, (heldAt T late base e.row e.col).content.isSome → e ∈ outs.map Prod.fst
  heights : HeightInv T late base Y r (col + els.length) (outs0 ++ outs) s'
  lines : s'.lines = s.lines ++ outs.flatMap (·.2.lines)
  fills : s'.fills = s.fills ++ outs.flatMap (·.2.fills)
  parts : s'.parts = s.parts ++ outs.flatMap (·.2.parts)
  delayed : DelOk T s → DelOk T s'
  height : s.maxHeight ≤ s'.maxHeight

theorem cells_draw (hok : RectsOk T.content T.cols) (hf : FlagOk T.content) {late : Option (List (Nat × Delayed σ C))} {X Y : Nat → Rat} {x width : Rat}
    (hX : X = colX T.widths x width) (hw : ∀ c m, cellWidth T.widths width c (m + 1) = X (c + m + 1) - X c) {base r : Nat} {dl : Bool}
    (els : List (RowEl σ C)) {col : Nat} {cells : List (Tile C)} {outs0 : List (Tile C × CellOut σ P B C)} {s s' : TS σ P B C} (hs : SpanInv T base r col cells s)
    (hin : ∀ p ∈ outs0, p.1 ∈ cells) (hht : HeightInv T late base Y r col outs0 s)
    (hfm : FillInv X Y r col cells s.fillsMem) (hy : s.yAbs = Y r) (hx : s.x = x) (hwd : s.width = width) (hdl : dl = true → r = 0)
    (hcol : col + els.length ≤ T.cols) (hel : ∀ k el, els[k]? = some el → ElOk T base r (col + k) el)
    (hat : ∀ k el, els[k]? = some el → elAt T late base r (col + k) = some el) (h : s.addCells T dl col els = .ok s') :
    ∃ new lefts tops outs, CellsDraw T late X Y base r col els cells new lefts tops outs0 outs s s' := by
  induction els generalizing col cells outs0 s with
  | nil =>
    simp only [TS.addCells, Except.ok.injEq] at h
    subst h
    exact ⟨[], [], [], [], CellFrame.refl _, by simpa using hs, by simpa using hfm, rfl, rfl, by simp, by simp, fun g _ _ => rfl, by simp, by simp, by simp,
      by simpa using hht, by simp, by simp, by simp, id, le_rfl⟩
  | cons el els ih =>
    simp only [TS.addCells] at h
    simp only [List.length_cons] at hcol
    cases h1 : s.addCell T col el dl with
    | error e => rw [h1] at h; cases h
    | ok s1 =>
      rw [h1] at h
      simp only at h
      obtain ⟨hfr, hdraw⟩ := addCell_draw h1
      have hXc : colX T.widths s.x s.width col = X col := by rw [hX, hx, hwd]
      -- the step
      have step : ∃ new1 l t outs1, SpanInv T base r (col + 1) (cells ++ new1) s1 ∧ FillInv X Y r (col + 1) (cells ++ new1) s1.fillsMem ∧
          Drawn T base r col (cells ++ new1) l t ∧ (∀ e ∈ new1, e = tileOf T base r col el) ∧
          s1.pen = s.pen.step T.widths s.width (X col) s.yAbs col (some l) (some t) ∧
          ((∀ p ∈ outs1, Placed T late base p.1 X Y (Y r - s.rowMax) r p.2) ∧ (outs1.map Prod.fst).Sublist new1 ∧
            (∀ e ∈ new1, (heldAt T late base e.row e.col).content.isSome → e ∈ outs1.map Prod.fst) ∧ HeightInv T late base Y r (col + 1) (outs0 ++ outs1) s1) ∧
          s1.lines = s.lines ++ outs1.flatMap (·.2.lines) ∧ s1.fills = s.fills ++ outs1.flatMap (·.2.fills) ∧
          s1.parts = s.parts ++ outs1.flatMap (·.2.parts) ∧ (DelOk T s → DelOk T s1) ∧ s.maxHeight ≤ s1.maxHeight := by
        rw [← hXc]
        cases hdraw with
        | below k m hr hd pen lines fills parts delayed fillsMem flag colspan rowspan height heights hlast =>
          obtain ⟨a1, a2⟩ := hs.below hf (by omega) hr hfr.index flag colspan rowspan
          refine ⟨[], _, _, [], by simpa using a1, ?_, by simpa using a2, by simp, pen, ⟨by simp, by simp, by simp, ?_⟩, by simp [lines], by simp [fills],
            by simp [parts], ?_, height⟩
          · rw [List.append_nil, fillsMem]
            exact hfm.below hs hr
          · rw [List.append_nil]
            refine ⟨fun p hp h0 hle => ?_, fun p hp h0 hc hle => ?_⟩
            · rw [heights]
              refine hht.pend p hp h0 (le_trans ?_ hle)
              split <;> split <;> omega
            · by_cases hcc : p.1.col < col
              · exact le_trans (hht.last p hp h0 hcc hle) height
              · have hcc' : p.1.col = col := by omega
                have hpe := hht.pend p hp h0 (by rw [if_neg hcc]; omega)
                obtain ⟨e, he, e1, e2, e3, e4⟩ := hs.ent col k m hr
                rw [if_neg (by omega)] at e4
                obtain ⟨k', hk'⟩ := hs.pend p.1 (hin p hp) (by rw [if_neg hcc]; omega)
                rw [hcc', hr] at hk'
                have hee : p.1 = e := hs.apart _ (hin p hp) _ he r col ⟨by have := hs.early _ (hin p hp); omega, by omega, by omega, by omega⟩
                  ⟨by have := hs.early e he; omega, by omega, by omega, by omega⟩
                rw [← hee] at e4
                have := hlast (by omega)
                rw [← hcc', hpe] at this
                exact this
          · intro hd c d hcd
            rw [delayed] at hcd
            rw [hfr.index]
            exact hd c d hcd
        | beside hr hc pen lines fills parts delayed fillsMem flag colspan rowspan height heights =>
          obtain ⟨a1, a2⟩ := hs.beside (by omega) hr hc hfr.index flag colspan rowspan
          refine ⟨[], _, _, [], by simpa using a1, ?_, by simpa using a2, by simp, pen, ⟨by simp, by simp, by simp, ?_⟩, by simp [lines], by simp [fills],
            by simp [parts], ?_, height⟩
          · rw [List.append_nil, fillsMem]
            exact hfm.beside hs hr
          · rw [List.append_nil]
            refine ⟨fun p hp h0 hle => ?_, fun p hp h0 hc' hle => ?_⟩
            · rw [heights]
              refine hht.pend p hp h0 (le_trans ?_ hle)
              split <;> split <;> omega
            · by_cases hcc : p.1.col < col
              · exact le_trans (hht.last p hp h0 hcc hle) height
              · obtain ⟨k', hk'⟩ := hs.pend p.1 (hin p hp) (by rw [if_neg hcc]; omega)
                rw [show p.1.col = col by omega, hr] at hk'
                cases hk'
          · intro hd c d hcd
            rw [delayed] at hcd
            rw [hfr.index]
            exact hd c d hcd
        | start d outs hd hr pen ran lines fills parts delayed fillsMem flag colspan rowspan height heights =>
          have hrn : dget col s.rowspan = none ∧ s.colspan = 0 := by
            rcases hr with hr | ⟨hr1, hr2⟩
            · exact hr
            · exfalso
              obtain ⟨⟨k, m⟩, hk⟩ := Option.ne_none_iff_exists'.1 hr2
              obtain ⟨e, he, e1, -⟩ := hs.ent col k m hk
              have := hs.early e he
              have := hdl hr1
              omega
          obtain ⟨o1, o2, o3, o4⟩ := hel 0 el (by simp)
          rw [Nat.add_zero] at o2
          rw [hs.index] at hd rowspan fillsMem
          rw [← hd] at o1 o2 o3
          have hpos : (d.rowsLeft (base + r) > 0) ↔ 0 < (d.rowsLeft (base + r)).toNat := by omega
          have hrl : d.rowsLeft (base + r) = (d.rows : Int) - (base + r : Nat) + d.row := rfl
          obtain ⟨a1, a2⟩ := hs.start hok hrn.1 hrn.2 hfr.index (d.rowsLeft (base + r)).toNat d.cols
            (d.style.fill.or (T.fillDef (base + r : Nat) col)) flag colspan
            (by rw [rowspan]; simp only [hpos])
            (by
              rcases o2 with ⟨-, z⟩ | ⟨c, c1, c2, c3⟩
              · omega
              · have := (hok.inside _ _ _ c1).2; omega)
            (by
              intro hp
              rcases o2 with ⟨z, -⟩ | ⟨c, c1, c2, c3⟩
              · omega
              · exact ⟨d.row, c, c1, c3, by omega, o1⟩)
            (by
              rcases o3 with o3 | o3
              · exact .inl o3
              · right
                intro hp
                rcases o2 with ⟨-, z⟩ | ⟨c, c1, c2, c3⟩
                · omega
                · exact ⟨c, o3 ▸ c1, c3⟩)
            (by
              intro hn
              rcases o2 with ⟨-, z⟩ | ⟨c, c1, c2, c3⟩
              · exact z
              · rw [← c3]; exact hn _ _ _ c1)
          have hat0 := hat 0 el (by simp)
          rw [Nat.add_zero] at hat0
          have hheld := heldAt_el hat0
          have hvp := vpad_eq hat0
          rw [← hd] at hvp hheld
          have hold : HeightInv T late base Y r (col + 1) outs0 s1 := by
            refine ⟨fun p hp h0 hle => ?_, fun p hp h0 hc' hle => ?_⟩
            · by_cases hcc : p.1.col = col
              · obtain ⟨k', hk'⟩ := hs.pend p.1 (hin p hp) (by rw [if_neg (by omega)]; rw [if_pos (by omega)] at hle; omega)
                rw [hcc, hrn.1] at hk'
                cases hk'
              · rw [heights _ hcc]
                refine hht.pend p hp h0 (le_trans ?_ hle)
                split <;> split <;> omega
            · by_cases hcc : p.1.col < col
              · exact le_trans (hht.last p hp h0 hcc hle) height
              · obtain ⟨k', hk'⟩ := hs.pend p.1 (hin p hp) (by rw [if_neg hcc]; omega)
                rw [show p.1.col = col by omega, hrn.1] at hk'
                cases hk'
          refine ⟨[tileOf T base r col el], _, _, outs.map fun o => (tileOf T base r col el, o), ?_, ?_, ?_, by simp, pen, ?_, ?_, ?_, ?_, ?_, height⟩
          · simp only [tileOf, ← hd]; exact a1
          · simp only [tileOf, ← hd]
            have := hfm.start hs hrn.1 hrn.2 (d.rowsLeft (base + r)).toNat d.cols (d.style.fill.or (T.fillDef (base + r : Nat) col)) _ (hw col d.cols)
            rw [fillsMem, hXc, hy, hwd]
            simp only [hpos]
            exact this
          · simp only [tileOf, ← hd]; exact a2
          · rcases ran with ⟨hn, rfl⟩ | ⟨c, o, hc, rfl, hex, hhs⟩
            · refine ⟨by simp, by simp, ?_, by simpa using hold⟩
              intro e he hsome
              simp only [List.mem_singleton] at he
              subst he
              rw [show heldAt T late base (tileOf T base r col el).row (tileOf T base r col el).col = _ from hheld, hn] at hsome
              cases hsome
            · refine ⟨?_, by simp, by simp, ?_⟩
              · intro p hp
                simp only [List.map_cons, List.map_nil, List.mem_singleton] at hp
                subst hp
                refine ⟨⟨c, ?_, ?_⟩, fun _ hlt => ?_⟩
                · rw [show heldAt T late base (tileOf T base r col el).row (tileOf T base r col el).col = _ from hheld]; exact hc
                · have e1 : padLeft T late base (tileOf T base r col el) = (T.border s.index col true).width / 2 + d.style.left := by
                    unfold padLeft
                    rw [show heldAt T late base (tileOf T base r col el).row (tileOf T base r col el).col = _ from hheld, hs.index]; rfl
                  have e2 : padTop T late base (tileOf T base r col el) = (T.border s.index col false).width / 2 + d.style.top := by
                    unfold padTop
                    rw [show heldAt T late base (tileOf T base r col el).row (tileOf T base r col el).col = _ from hheld, hs.index]; rfl
                  have e3 : padRight T late base (tileOf T base r col el) = (T.border s.index (col + d.cols + 1) true).width / 2 + d.style.right := by
                    unfold padRight
                    rw [show heldAt T late base (tileOf T base r col el).row (tileOf T base r col el).col = _ from hheld, hs.index,
                      show (tileOf T base r col el).cols = d.cols by rw [hd]; rfl, show (tileOf T base r col el).col = col from rfl,
                      show (tileOf T base r col el).row = r from rfl]
                    push_cast
                    rfl
                  rw [hs.index, hvp, ← hs.index, ← e1, ← e3, hy, hwd, ← hwd, hXc, hwd, hw, ← e2] at hex
                  rw [show (tileOf T base r col el).cols = d.cols by rw [hd]; rfl, show (tileOf T base r col el).col = col from rfl,
                      show (tileOf T base r col el).row = r from rfl]
                  rw [show X (col + d.cols + 1) - X col - padLeft T late base (tileOf T base r col el) - padRight T late base (tileOf T base r col el) =
                    X (col + d.cols + 1) - X col - (padLeft T late base (tileOf T base r col el) + padRight T late base (tileOf T base r col el)) by ring,
                    show Y r - padTop T late base (tileOf T base r col el) - (Y r - s.rowMax + padBottom T late base (tileOf T base r col el)) =
                    s.rowMax - (padTop T late base (tileOf T base r col el) + padBottom T late base (tileOf T base r col el)) by ring]
                  exact hex
                · exact absurd hlt (by show ¬ r + _ < r; omega)
              · refine ⟨fun p hp h0 hle => ?_, fun p hp h0 hc' hle => ?_⟩
                · rcases List.mem_append.1 hp with hp | hp
                  · exact hold.pend p hp h0 hle
                  · simp only [List.map_cons, List.map_nil, List.mem_singleton] at hp
                    subst hp
                    have hcc : (tileOf T base r col el).col = col := rfl
                    simp only [hcc, if_pos (Nat.lt_succ_self col)] at hle ⊢
                    have hrow : (tileOf T base r col el).row = r := rfl
                    have hrows : (tileOf T base r col el).rows = (d.rowsLeft (base + r)).toNat := by rw [hd]; rfl
                    rw [hrow, hrows] at hle
                    rw [(hhs h0).1 (by rw [hs.index]; omega), hs.index, hvp, hrow]
                    congr 1
                    ring
                · rcases List.mem_append.1 hp with hp | hp
                  · exact hold.last p hp h0 hc' hle
                  · simp only [List.map_cons, List.map_nil, List.mem_singleton] at hp
                    subst hp
                    have hrow : (tileOf T base r col el).row = r := rfl
                    have hrows : (tileOf T base r col el).rows = (d.rowsLeft (base + r)).toNat := by rw [hd]; rfl
                    simp only [hrow, hrows] at hle ⊢
                    have := (hhs h0).2 (by rw [hs.index]; omega)
                    rw [hs.index, hvp] at this
                    linarith
          · rw [lines, List.flatMap_map]
          · rw [fills, List.flatMap_map]
          · rw [parts, List.flatMap_map]
          · intro hdel c d' hcd
            rw [hfr.index]
            rcases delayed c d' hcd with ⟨-, hold⟩ | ⟨rfl, q1, q2, q3, q4⟩
            · exact hdel c d' hold
            · rw [q1, q2, q3, q4, hs.index]
              exact ⟨by omega, o1, o2, by rw [hd]; exact o4⟩
      obtain ⟨new1, l, t, outs1, p1, p2, p3, p4, p5, p6, p7, p8, p9, p10, p11⟩ := step
      have hin1 : ∀ p ∈ outs0 ++ outs1, p.1 ∈ cells ++ new1 := by
        intro p hp
        rcases List.mem_append.1 hp with hp | hp
        · exact List.mem_append_left _ (hin p hp)
        · exact List.mem_append_right _ (p6.2.1.subset (List.mem_map_of_mem hp))
      obtain ⟨new2, lefts, tops, outs2, q⟩ := ih (col := col + 1) p1 hin1 p6.2.2.2 p2 (by rw [hfr.yAbs]; exact hy) (by rw [hfr.x]; exact hx) (by rw [hfr.width]; exact hwd)
        (by omega) (fun k el' hk => by
          have := hel (k + 1) el' (by simpa using hk)
          rwa [show col + (k + 1) = col + 1 + k by omega] at this) (fun k el' hk => by
          have := hat (k + 1) el' (by simpa using hk)
          rwa [show col + (k + 1) = col + 1 + k by omega] at this) h
      refine ⟨new1 ++ new2, l :: lefts, t :: tops, outs1 ++ outs2, ?_⟩
      have hnot : ∀ e ∈ new2, ¬ e.Covers r col := by
        intro e he hc
        obtain ⟨k, el', -, rfl⟩ := q.fresh e he
        have := hc.2.2.1
        simp only [tileOf] at this
        omega
      refine ⟨hfr.trans q.frame, ?_, ?_, by simp [q.leftsLen], by simp [q.topsLen], ?_, ?_, ?_, ?_, ?_, ?_, ?_, ?_, ?_, ?_, fun hd => q.delayed (p10 hd), le_trans p11 q.height⟩
      · rw [← List.append_assoc, List.length_cons, show col + (els.length + 1) = col + 1 + els.length by omega]
        exact q.spans
      · rw [← List.append_assoc, List.length_cons, show col + (els.length + 1) = col + 1 + els.length by omega]
        exact q.fillsMem
      · intro k l' t' hl ht
        rw [← List.append_assoc]
        cases k with
        | zero =>
          simp only [List.getElem?_cons_zero, Option.some.injEq] at hl ht
          subst hl ht
          exact p3.append hnot
        | succ k =>
          simp only [List.getElem?_cons_succ] at hl ht
          rw [show col + (k + 1) = col + 1 + k by omega]
          exact q.drawn k l' t' hl ht
      · intro e he
        rcases List.mem_append.1 he with he | he
        · exact ⟨0, el, by simp, p4 e he⟩
        · obtain ⟨k, el', h1, h2⟩ := q.fresh e he
          exact ⟨k + 1, el', by simpa using h1, by rw [show col + (k + 1) = col + 1 + k by omega]; exact h2⟩
      · intro g hg hl
        have h0 := hl 0 (by simp)
        simp only [Nat.add_zero, List.getElem?_cons_zero] at h0
        rw [List.length_cons, Pen.row, h0.1, h0.2, hg, ← p5]
        have := q.pen g (by rw [hfr.yAbs]; exact hg) (fun k hk => by
          have := hl (k + 1) (by simp only [List.length_cons]; omega)
          rw [show col + (k + 1) = col + 1 + k by omega] at this
          simpa using this)
        rw [this, hfr.width]
      · intro o ho
        rcases List.mem_append.1 ho with ho | ho
        · exact p6.1 o ho
        · have := q.ran o ho
          rwa [hfr.rowMax] at this
      · rw [List.map_append]
        exact p6.2.1.append q.order
      · intro e he hsome
        rw [List.map_append]
        rcases List.mem_append.1 he with he | he
        · exact List.mem_append_left _ (p6.2.2.1 e he hsome)
        · exact List.mem_append_right _ (q.full e he hsome)
      · rw [← List.append_assoc, List.length_cons, show col + (els.length + 1) = col + 1 + els.length by omega]
        exact q.heights
      · rw [q.lines, p7, List.flatMap_append, List.append_assoc]
      · rw [q.fills, p8, List.flatMap_append, List.append_assoc]
      · rw [q.parts, p9, List.flatMap_append, List.append_assoc]

end Verif
