import Verif.Lemmas.TableLines
/-! The cells, lines and fills of one run of a table (table.py:451-672, 719-828). -/
namespace Verif
open Spec

variable {σ P B C : Type} [DecidableEq B] {T : TConf σ P B C}

/-- what is kept free above and below the content of a cell -/
def vpad (T : TConf σ P B C) (index col : Nat) (d : Delayed σ C) : Rat :=
  (T.border index col false).width / 2 + d.style.top + ((T.border (index + d.rowsLeft index + 1) col false).width / 2 + d.style.bottom)

/-- what the content of a cell gave, if it has one -/
def RanCell (T : TConf σ P B C) (s s' : TS σ P B C) (col : Nat) (d : Delayed σ C) (outs : List (CellOut σ P B C)) : Prop :=
  (d.content = none ∧ outs = []) ∨ ∃ c o, d.content = some c ∧ outs = [o] ∧
    T.exec c (colX T.widths s.x s.width col + ((T.border s.index col true).width / 2 + d.style.left))
      (s.yAbs - ((T.border s.index col false).width / 2 + d.style.top))
      (cellWidth T.widths s.width col (d.cols + 1) - ((T.border s.index col true).width / 2 + d.style.left +
        ((T.border s.index (col + d.cols + 1) true).width / 2 + d.style.right)))
      (s.rowMax - vpad T s.index col d) = .ok o ∧
    (0 < o.height → (d.rowsLeft s.index > 0 → dget col s'.heightsMem = some (o.height + vpad T s.index col d)) ∧
      (¬ d.rowsLeft s.index > 0 → o.height + vpad T s.index col d ≤ s'.maxHeight))

def TS.pen (s : TS σ P B C) : Pen B := ⟨s.topLines, s.topInt, s.vert⟩

/-- the three cases of `add_cell`, with what is drawn -/
inductive CellDraw (T : TConf σ P B C) (s s' : TS σ P B C) (col : Nat) (el : RowEl σ C) (dl : Bool) : Prop
  | below (k m : Nat) (hr : dget col s.rowspan = some (k, m)) (hd : dl = false)
      (pen : s'.pen = s.pen.step T.widths s.width (colX T.widths s.x s.width col) s.yAbs col (some (T.border s.index col true))
        (some (T.border s.index col false).off))
      (lines : s'.lines = s.lines) (fills : s'.fills = s.fills) (parts : s'.parts = s.parts) (delayed : s'.delayed = s.delayed)
      (fillsMem : s'.fillsMem = if k = 1 then s.fillsMem.map fun e => if e.1 = col then (e.1, { e.2 with later := false }) else e else s.fillsMem)
      (flag : s'.isRowspan = if k = 1 then m != 0 else true) (colspan : s'.colspan = m)
      (rowspan : s'.rowspan = if k = 1 then ddrop col s.rowspan else dset col (k - 1, m) s.rowspan)
      (height : s.maxHeight ≤ s'.maxHeight)
      (heights : s'.heightsMem = s.heightsMem) (last : k = 1 → (dget col s.heightsMem).getD 0 ≤ s'.maxHeight)
  | beside (hr : dget col s.rowspan = none) (hc : 0 < s.colspan)
      (pen : s'.pen = s.pen.step T.widths s.width (colX T.widths s.x s.width col) s.yAbs col (some (T.border s.index col true).off)
        (some (if s.isRowspan then (T.border s.index col false).off else T.border s.index col false)))
      (lines : s'.lines = s.lines) (fills : s'.fills = s.fills) (parts : s'.parts = s.parts) (delayed : s'.delayed = s.delayed)
      (fillsMem : s'.fillsMem = s.fillsMem)
      (flag : s'.isRowspan = (s.isRowspan && s.colspan - 1 != 0)) (colspan : s'.colspan = s.colspan - 1) (rowspan : s'.rowspan = s.rowspan)
      (height : s.maxHeight ≤ s'.maxHeight)
      (heights : s'.heightsMem = s.heightsMem)
  | start (d : Delayed σ C) (outs : List (CellOut σ P B C)) (hd : d = T.element s.index el)
      (hr : (dget col s.rowspan = none ∧ s.colspan = 0) ∨ dl = true ∧ dget col s.rowspan ≠ none)
      (pen : s'.pen = s.pen.step T.widths s.width (colX T.widths s.x s.width col) s.yAbs col (some (T.border s.index col true))
        (some (T.border s.index col false)))
      (ran : RanCell T s s' col d outs) (lines : s'.lines = s.lines ++ outs.flatMap (·.lines)) (fills : s'.fills = s.fills ++ outs.flatMap (·.fills))
      (parts : s'.parts = s.parts ++ outs.flatMap (·.parts))
      (delayed : ∀ c d', dget c s'.delayed = some d' → (c ≠ col ∧ dget c s.delayed = some d') ∨
        (c = col ∧ d'.row = d.row ∧ d'.rows = d.rows ∧ d'.cols = d.cols ∧ d'.style = d.style))
      (fillsMem : s'.fillsMem = match d.style.fill.or (T.fillDef s.index col) with
        | none => s.fillsMem
        | some f => dset col ⟨colX T.widths s.x s.width col, s.yAbs, cellWidth T.widths s.width col (d.cols + 1), 0, f,
            decide (d.rowsLeft s.index > 0)⟩ s.fillsMem)
      (flag : s'.isRowspan = s.isRowspan) (colspan : s'.colspan = d.cols)
      (rowspan : s'.rowspan = if d.rowsLeft s.index > 0 then dset col ((d.rowsLeft s.index).toNat, d.cols) s.rowspan else s.rowspan)
      (height : s.maxHeight ≤ s'.maxHeight)
      (heights : ∀ c, c ≠ col → dget c s'.heightsMem = dget c s.heightsMem)

theorem le_ite_gt (a b : Rat) : b ≤ if a > b then a else b := by
  rw [ite_max]; exact le_max_right _ _

omit [DecidableEq B] in
theorem addHeight_eq (s : TS σ P B C) (col : Nat) (n : Int) (a h : Rat) :
    ∃ hm mh, s.addHeight col n a h = { s with heightsMem := hm, maxHeight := mh } ∧ s.maxHeight ≤ mh ∧
      (∀ c, c ≠ col → dget c hm = dget c s.heightsMem) ∧ (0 < h → (n > 0 → dget col hm = some (h + a)) ∧ (¬ n > 0 → h + a ≤ mh)) := by
  unfold TS.addHeight
  dsimp only
  by_cases hn : n > 0
  · rw [if_pos hn]
    refine ⟨_, _, rfl, le_ite_gt _ _, fun c hc => by rw [dget_dset, if_neg hc], fun hh => ⟨fun _ => ?_, fun h' => absurd hn h'⟩⟩
    rw [dget_dset, if_pos rfl, if_pos hh]
  · rw [if_neg hn]
    refine ⟨_, _, rfl, le_ite_gt _ _, fun c _ => rfl, fun hh => ⟨fun h' => absurd h' hn, fun _ => ?_⟩⟩
    rw [ite_max, if_pos hh]
    exact le_max_left _ _

theorem start_draw {s s' : TS σ P B C} {col : Nat} {el : RowEl σ C} {dl : Bool}
    (hr : (dget col s.rowspan = none ∧ s.colspan = 0) ∨ dl = true ∧ dget col s.rowspan ≠ none)
    (s1 : TS σ P B C)
    (hs1 : s1 = ({ s with xAbs := colX T.widths s.x s.width col }).processBorders T col (some (T.border s.index col true)) (some (T.border s.index col false)))
    (d : Delayed σ C) (hd : d = T.element s.index el) (s2 : TS σ P B C)
    (hs2 : s2 = { s1 with colspan := d.cols, rowspan := if d.rowsLeft s.index > 0 then dset col ((d.rowsLeft s.index).toNat, d.cols) s1.rowspan else s1.rowspan })
    (b : CellBox) (hbox : b = s2.cellBox T col (T.border s.index col true) (T.border s.index col false) d)
    (h : (match (s2.setFill T col d.style.fill (b.width + b.padX) (decide (d.rowsLeft s.index > 0))).addContent T col d b with
      | .error e => .error e
      | .ok (h, s) => .ok (s.addHeight col (d.rowsLeft s.index) b.padY h)) = Except.ok s') : CellDraw T s s' col el dl := by
  have hb : b.width + b.padX = cellWidth T.widths s.width col (d.cols + 1) := by
    subst hbox hs2 hs1
    exact sub_add_cancel _ _
  have hpad : b.padY = vpad T s.index col d := by subst hbox hs2 hs1; rfl
  have hx : b.x = colX T.widths s.x s.width col + ((T.border s.index col true).width / 2 + d.style.left) := by subst hbox hs2 hs1; rfl
  have hy : b.y = s.yAbs - ((T.border s.index col false).width / 2 + d.style.top) := by subst hbox hs2 hs1; rfl
  have hw : b.width = cellWidth T.widths s.width col (d.cols + 1) - ((T.border s.index col true).width / 2 + d.style.left +
        ((T.border s.index (col + d.cols + 1) true).width / 2 + d.style.right)) := by subst hbox hs2 hs1; rfl
  have hh : b.height = s.rowMax - vpad T s.index col d := by subst hbox hs2 hs1; rfl
  clear hbox
  rw [hb] at h
  have hfill : ∃ s3 : TS σ P B C, s2.setFill T col d.style.fill (cellWidth T.widths s.width col (d.cols + 1)) (decide (d.rowsLeft s.index > 0)) = s3 ∧
      s3 = { s2 with fillsMem := match d.style.fill.or (T.fillDef s.index col) with
        | none => s.fillsMem
        | some f => dset col ⟨colX T.widths s.x s.width col, s.yAbs, cellWidth T.widths s.width col (d.cols + 1), 0, f,
            decide (d.rowsLeft s.index > 0)⟩ s.fillsMem } := by
    refine ⟨_, rfl, ?_⟩
    subst hs2 hs1
    unfold TS.setFill
    simp only [TS.processBorders]
    cases d.style.fill.or (T.fillDef s.index col) <;> rfl
  obtain ⟨s3, hs3, e3⟩ := hfill
  rw [hs3] at h
  unfold TS.addContent at h
  cases hc : d.content with
  | none =>
    rw [hc] at h
    simp only at h
    obtain ⟨hm, mh, e1, e2, e4, -⟩ := addHeight_eq ({ s3 with delayed := dset col d s3.delayed } : TS σ P B C) col (d.rowsLeft s3.index) b.padY 0
    simp only [Except.ok.injEq] at h
    rw [e1] at h
    subst h e3 hs2 hs1
    refine .start d [] hd hr rfl (.inl ⟨hc, rfl⟩) (by simp [TS.processBorders]) (by simp [TS.processBorders]) (by simp [TS.processBorders]) ?_ rfl rfl rfl rfl e2 e4
    intro c d' hd'
    simp only [dget_dset] at hd'
    split at hd'
    · cases hd'; exact .inr ⟨by assumption, rfl, rfl, rfl, rfl⟩
    · exact .inl ⟨by assumption, hd'⟩
  | some c =>
    rw [hc] at h
    simp only at h
    cases he : T.exec c b.x b.y b.width b.height with
    | error e => rw [he] at h; simp at h
    | ok o =>
      rw [he] at h
      simp only [Except.ok.injEq] at h
      obtain ⟨hm, mh, e1, e2, e4, e5⟩ := addHeight_eq (s3.addOut col d o) col (d.rowsLeft (s3.addOut col d o).index) b.padY o.height
      rw [e1] at h
      subst h e3 hs2 hs1
      refine .start d [o] hd hr rfl ?_ ?_ ?_ ?_ ?_ rfl rfl rfl rfl e2 e4
      · rw [hx, hy, hw, hh] at he
        rw [hpad] at e5
        exact .inr ⟨c, o, hc, rfl, he, e5⟩
      · simp [TS.processBorders, TS.addOut]
      · simp [TS.processBorders, TS.addOut]
      · simp [TS.processBorders, TS.addOut]
      · intro c' d' hd'
        simp only [TS.addOut] at hd'
        split at hd'
        · rw [dget_ddrop] at hd'
          split at hd'
          · cases hd'
          · exact .inl ⟨by assumption, hd'⟩
        · rw [dget_dset] at hd'
          split at hd'
          · cases hd'; exact .inr ⟨by assumption, rfl, rfl, rfl, rfl⟩
          · exact .inl ⟨by assumption, hd'⟩

theorem addCell_draw {s s' : TS σ P B C} {col : Nat} {el : RowEl σ C} {dl : Bool} (h : s.addCell T col el dl = .ok s') :
    CellFrame s s' ∧ CellDraw T s s' col el dl := by
  refine ⟨(addCell_cases h).elim (fun h => h.2.frame) (fun h => h.2.frame), ?_⟩
  unfold TS.addCell TS.isSpan at h
  dsimp only at h
  cases hr : dget col s.rowspan with
  | none =>
    rw [hr] at h
    simp only at h
    by_cases hc : 0 < s.colspan
    · simp only [if_pos hc, if_true, Except.ok.injEq] at h
      subst h
      exact .beside hr hc rfl rfl rfl rfl rfl rfl rfl rfl rfl le_rfl rfl
    · simp only [if_neg hc, Bool.false_eq_true, if_false] at h
      exact start_draw (.inl ⟨hr, by omega⟩) _ rfl _ rfl _ rfl _ rfl h
  | some q =>
    obtain ⟨k, m⟩ := q
    rw [hr] at h
    simp only at h
    cases dl with
    | true =>
      simp only [if_true, Bool.false_eq_true, if_false] at h
      exact start_draw (.inr ⟨rfl, by rw [hr]; simp⟩) _ rfl _ rfl _ rfl _ rfl h
    | false =>
      simp only [Bool.false_eq_true, if_false] at h
      by_cases h1 : k = 1
      · simp only [if_pos h1, if_true, Except.ok.injEq] at h
        subst h
        refine .below k m hr rfl rfl rfl rfl rfl rfl ?_ ?_ rfl ?_ ?_ rfl ?_
        · rw [if_pos h1]; rfl
        · rw [if_pos h1]; rfl
        · rw [if_pos h1]; rfl
        · exact le_ite_gt _ _
        · intro _
          show _ ≤ if _ > _ then _ else _
          rw [ite_max]
          exact le_max_left _ _
      · simp only [if_neg h1, if_true, Except.ok.injEq] at h
        subst h
        refine .below k m hr rfl rfl rfl rfl rfl rfl ?_ ?_ rfl ?_ le_rfl rfl (fun h => absurd h h1)
        · rw [if_neg h1]; rfl
        · rw [if_neg h1]; rfl
        · rw [if_neg h1]; rfl

/-! ### Spans -/

def Narrow (content : List (List (Option (Cell σ C)))) : Prop := ∀ i j c, cellAt content i j = some c → c.cols = 0

/-- the spans before column `col` of row `r` of a run -/
structure SpanInv (T : TConf σ P B C) (base r col : Nat) (cells : List (Tile C)) (s : TS σ P B C) : Prop where
  index : s.index = base + r
  nodup : cells.Nodup
  early : ∀ e ∈ cells, e.row < r ∨ (e.row = r ∧ e.col < col)
  cols : ∀ e ∈ cells, e.col + e.cols < T.cols
  real : ∀ e ∈ cells, 0 < e.rows → ∃ i c, cellAt T.content i e.col = some c ∧ c.cols = e.cols ∧ i + c.rows = base + e.row + e.rows ∧ i ≤ base + e.row
  ent : ∀ c k m, dget c s.rowspan = some (k, m) → ∃ e ∈ cells, e.col = c ∧ e.cols = m ∧ 1 ≤ k ∧
    e.row + e.rows + 1 = (if c < col then r + 1 else r) + k
  pend : ∀ e ∈ cells, (if e.col < col then r + 1 else r) ≤ e.row + e.rows → ∃ k, dget e.col s.rowspan = some (k, e.cols)
  opn : 0 < s.colspan → ∃ e ∈ cells, e.row ≤ r ∧ r ≤ e.row + e.rows ∧ e.col < col ∧ e.col + e.cols + 1 = col + s.colspan ∧
    (s.isRowspan = true ↔ e.row < r)
  closed : ∀ e ∈ cells, r ≤ e.row + e.rows → e.col < col → col ≤ e.col + e.cols → e.col + e.cols + 1 = col + s.colspan
  apart : ∀ e ∈ cells, ∀ e' ∈ cells, ∀ p q, e.Covers p q → e'.Covers p q → e = e'
  cover : ∀ p q, q < T.cols → p < r ∨ (p = r ∧ q < col) → ∃ e ∈ cells, e.Covers p q
  flag : (s.colspan = 0 → s.isRowspan = false) ∨ Narrow T.content ∧ s.colspan = 0

omit [DecidableEq B] in
/-- a position that was not reached before is only covered by a cell that is still in the memory -/
theorem SpanInv.notCovered {base r col : Nat} {cells : List (Tile C)} {s : TS σ P B C} (h : SpanInv T base r col cells s)
    (hr : dget col s.rowspan = none) (hc : s.colspan = 0) : ∀ e ∈ cells, ¬ e.Covers r col := by
  rintro e he ⟨h1, h2, h3, h4⟩
  by_cases hcol : e.col = col
  · obtain ⟨k, hk⟩ := h.pend e he (by rw [hcol, if_neg (by omega)]; exact h2)
    rw [hcol, hr] at hk
    cases hk
  · have := h.closed e he h2 (by omega) h4
    omega

/-- what a step has to say about the borders of a position -/
def Drawn (T : TConf σ P B C) (base r col : Nat) (cells : List (Tile C)) (left top : Bd B) : Prop :=
  Unless (InsideLeft cells r col) (T.border (base + r : Nat) col true) left ∧ Unless (InsideTop cells r col) (T.border (base + r : Nat) col false) top

omit [DecidableEq B] in
theorem SpanInv.below {base r col : Nat} {cells : List (Tile C)} {s s' : TS σ P B C} (hf : FlagOk T.content) (h : SpanInv T base r col cells s) {k m : Nat}
    (hcol : col < T.cols) (hr : dget col s.rowspan = some (k, m)) (hidx : s'.index = s.index)
    (flag : s'.isRowspan = if k = 1 then m != 0 else true) (colspan : s'.colspan = m)
    (rowspan : s'.rowspan = if k = 1 then ddrop col s.rowspan else dset col (k - 1, m) s.rowspan) :
    SpanInv T base r (col + 1) cells s' ∧ Drawn T base r col cells (T.border s.index col true) (T.border s.index col false).off := by
  obtain ⟨e, he, e1, e2, e3, e4⟩ := h.ent col k m hr
  rw [if_neg (by omega)] at e4
  have hlt : e.row < r := by
    rcases h.early e he with h1 | h1
    · exact h1
    · omega
  have hcov : e.Covers r col := ⟨by omega, by omega, by omega, by omega⟩
  have huniq : ∀ e' ∈ cells, e'.Covers r col → e' = e := fun e' he' hc => h.apart e' he' e he r col hc hcov
  have hget : ∀ c, c ≠ col → dget c s'.rowspan = dget c s.rowspan := by
    intro c hc
    rw [rowspan]
    split
    · rw [dget_ddrop, if_neg hc]
    · rw [dget_dset_ne (Ne.symm hc)]
  refine ⟨⟨hidx.trans h.index, h.nodup, ?_, h.cols, h.real, ?_, ?_, ?_, ?_, h.apart, ?_, ?_⟩, .inr ⟨?_, by rw [h.index]⟩, .inl ⟨?_, by rw [h.index]⟩⟩
  · intro e' he'
    have := h.early e' he'
    omega
  · intro c k' m' hk'
    by_cases hc : c = col
    · subst hc
      rw [if_pos (by omega)]
      rw [rowspan] at hk'
      split at hk'
      · rw [dget_ddrop, if_pos rfl] at hk'; cases hk'
      · rw [dget_dset_self] at hk'
        cases hk'
        exact ⟨e, he, e1, e2, by omega, by omega⟩
    · rw [hget c hc] at hk'
      obtain ⟨e', a1, a2, a3, a4, a5⟩ := h.ent c k' m' hk'
      refine ⟨e', a1, a2, a3, a4, ?_⟩
      have : (if c < col + 1 then r + 1 else r) = if c < col then r + 1 else r := by split <;> split <;> omega
      rw [this]
      exact a5
  · intro e' he' hp
    by_cases hc : e'.col = col
    · rw [hc, if_pos (by omega)] at hp
      have hrow : e'.row ≤ r := by have := h.early e' he'; omega
      have := huniq e' he' ⟨hrow, by omega, by omega, by omega⟩
      subst this
      rw [hc, rowspan, if_neg (by omega), dget_dset_self, e2]
      exact ⟨_, rfl⟩
    · rw [hget _ hc]
      refine h.pend e' he' ?_
      have : (if e'.col < col + 1 then r + 1 else r) = if e'.col < col then r + 1 else r := by split <;> split <;> omega
      rwa [this] at hp
  · intro hpos
    rw [colspan] at hpos ⊢
    refine ⟨e, he, by omega, by omega, by omega, by omega, ?_⟩
    rw [flag]
    constructor
    · intro _; exact hlt
    · intro _
      split
      · simp; omega
      · rfl
  · intro e' he' a1 a2 a3
    have hrow : e'.row ≤ r := by have := h.early e' he'; omega
    have := huniq e' he' ⟨hrow, a1, by omega, by omega⟩
    subst this
    omega
  · intro p q hq hp
    by_cases hpq : p = r ∧ q = col
    · rw [hpq.1, hpq.2]; exact ⟨e, he, hcov⟩
    · exact h.cover p q hq (by omega)
  · by_cases hm : m = 0
    · rcases hf with hf | hf
      · left
        intro _
        obtain ⟨i, c, b1, b2, b3, b4⟩ := h.real e he (by omega)
        have := hf i e.col c b1
        rw [flag, if_pos (by omega)]
        simp [hm]
      · right
        exact ⟨hf, by omega⟩
    · left
      intro h0
      omega
  · rintro ⟨e', he', hc, hl⟩
    have := huniq e' he' hc
    subst this
    omega
  · exact ⟨e, he, hcov, hlt⟩

omit [DecidableEq B] in
theorem SpanInv.beside {base r col : Nat} {cells : List (Tile C)} {s s' : TS σ P B C} (h : SpanInv T base r col cells s)
    (hcol : col < T.cols) (hr : dget col s.rowspan = none) (hc : 0 < s.colspan) (hidx : s'.index = s.index)
    (flag : s'.isRowspan = (s.isRowspan && s.colspan - 1 != 0)) (colspan : s'.colspan = s.colspan - 1) (rowspan : s'.rowspan = s.rowspan) :
    SpanInv T base r (col + 1) cells s' ∧ Drawn T base r col cells (T.border s.index col true).off
      (if s.isRowspan then (T.border s.index col false).off else T.border s.index col false) := by
  obtain ⟨e, he, e1, e2, e3, e4, e5⟩ := h.opn hc
  have hcov : e.Covers r col := ⟨by omega, by omega, by omega, by omega⟩
  have huniq : ∀ e' ∈ cells, e'.Covers r col → e' = e := fun e' he' hc => h.apart e' he' e he r col hc hcov
  have hno : ∀ e' ∈ cells, e'.col = col → ¬ r ≤ e'.row + e'.rows := by
    intro e' he' hcol' hle
    obtain ⟨k, hk⟩ := h.pend e' he' (by rw [hcol', if_neg (by omega)]; exact hle)
    rw [hcol', hr] at hk
    cases hk
  refine ⟨⟨hidx.trans h.index, h.nodup, ?_, h.cols, h.real, ?_, ?_, ?_, ?_, h.apart, ?_, ?_⟩, .inl ⟨⟨e, he, hcov, e3⟩, by rw [h.index]⟩, ?_⟩
  · intro e' he'
    have := h.early e' he'
    omega
  · intro c k' m' hk'
    rw [rowspan] at hk'
    have hne : c ≠ col := by rintro rfl; rw [hr] at hk'; cases hk'
    obtain ⟨e', a1, a2, a3, a4, a5⟩ := h.ent c k' m' hk'
    refine ⟨e', a1, a2, a3, a4, ?_⟩
    have : (if c < col + 1 then r + 1 else r) = if c < col then r + 1 else r := by split <;> split <;> omega
    rw [this]
    exact a5
  · intro e' he' hp
    rw [rowspan]
    by_cases hc' : e'.col = col
    · exfalso
      rw [hc', if_pos (by omega)] at hp
      exact hno e' he' hc' (by omega)
    · refine h.pend e' he' ?_
      have : (if e'.col < col + 1 then r + 1 else r) = if e'.col < col then r + 1 else r := by split <;> split <;> omega
      rwa [this] at hp
  · intro hpos
    rw [colspan] at hpos ⊢
    refine ⟨e, he, e1, e2, by omega, by omega, ?_⟩
    rw [flag, ← e5]
    have : (s.colspan - 1 != 0) = true := by simp; omega
    rw [this, Bool.and_true]
  · intro e' he' a1 a2 a3
    have hne : e'.col ≠ col := fun hc' => hno e' he' hc' a1
    have := h.closed e' he' a1 (by omega) (by omega)
    omega
  · intro p q hq hp
    by_cases hpq : p = r ∧ q = col
    · rw [hpq.1, hpq.2]; exact ⟨e, he, hcov⟩
    · exact h.cover p q hq (by omega)
  · rcases h.flag with h1 | ⟨h1, h2⟩
    · left
      intro h0
      rw [flag]
      have : (s.colspan - 1 != 0) = false := by simp; omega
      rw [this, Bool.and_false]
    · omega
  · by_cases hlt : e.row < r
    · left
      rw [if_pos (e5.2 hlt), h.index]
      exact ⟨⟨e, he, hcov, hlt⟩, rfl⟩
    · right
      rw [if_neg (fun hf => hlt (e5.1 hf)), h.index]
      refine ⟨?_, rfl⟩
      rintro ⟨e', he', hc', hl⟩
      have := huniq e' he' hc'
      subst this
      omega

omit [DecidableEq B] in
theorem SpanInv.start {base r col : Nat} {cells : List (Tile C)} {s s' : TS σ P B C} (hok : RectsOk T.content T.cols) (h : SpanInv T base r col cells s)
    (hr : dget col s.rowspan = none) (hc : s.colspan = 0) (hidx : s'.index = s.index) (rows cols : Nat) (color : Option C)
    (flag : s'.isRowspan = s.isRowspan) (colspan : s'.colspan = cols)
    (rowspan : s'.rowspan = if 0 < rows then dset col (rows, cols) s.rowspan else s.rowspan)
    (h1 : col + cols < T.cols)
    (h2 : 0 < rows → ∃ i c, cellAt T.content i col = some c ∧ c.cols = cols ∧ i + c.rows = base + r + rows ∧ i ≤ base + r)
    (h3 : r = 0 ∨ (0 < cols → ∃ c, cellAt T.content (base + r) col = some c ∧ c.cols = cols))
    (h4 : Narrow T.content → cols = 0) :
    SpanInv T base r (col + 1) (cells ++ [⟨r, col, rows, cols, color⟩]) s' ∧
      Drawn T base r col (cells ++ [⟨r, col, rows, cols, color⟩]) (T.border s.index col true) (T.border s.index col false) := by
  have hfree := h.notCovered hr hc
  have hget : ∀ c, c ≠ col → dget c s'.rowspan = dget c s.rowspan := by
    intro c hc
    rw [rowspan]
    split
    · rw [dget_dset_ne (Ne.symm hc)]
    · rfl
  -- the new cell is apart from the others
  have hap : ∀ e ∈ cells, ∀ p q, e.Covers p q → ¬ (⟨r, col, rows, cols, color⟩ : Tile C).Covers p q := by
    rintro e he p q ⟨a1, a2, a3, a4⟩ ⟨b1, b2, b3, b4⟩
    dsimp only at b1 b2 b3 b4
    have hn := hfree e he
    unfold Tile.Covers at hn
    have hearly := h.early e he
    by_cases hrow : e.row = r
    · exact hn ⟨by omega, by omega, by omega, by omega⟩
    · -- an earlier cell
      have hgt : col < e.col := by
        by_contra hle
        exact hn ⟨by omega, by omega, by omega, by omega⟩
      obtain ⟨i, c, c1, c2, c3, c4⟩ := h.real e he (by omega)
      rcases h3 with h3 | h3
      · omega
      · obtain ⟨c', d1, d2⟩ := h3 (by omega)
        have := hok.apart i e.col c (base + r) col c' (base + r) q c1 d1 (by omega) (by omega) (by omega) (by omega) (by omega) (by omega) (by omega) (by omega)
        omega
  have hself : (⟨r, col, rows, cols, color⟩ : Tile C).Covers r col := ⟨le_refl _, Nat.le_add_right _ _, le_refl _, Nat.le_add_right _ _⟩
  refine ⟨⟨hidx.trans h.index, ?_, ?_, ?_, ?_, ?_, ?_, ?_, ?_, ?_, ?_, ?_⟩, .inr ⟨?_, by rw [h.index]⟩, .inr ⟨?_, by rw [h.index]⟩⟩
  · rw [List.nodup_append]
    refine ⟨h.nodup, by simp, ?_⟩
    rintro a ha b hb rfl
    simp only [List.mem_singleton] at hb
    exact hfree a ha (hb ▸ hself)
  · intro e he
    rcases List.mem_append.1 he with he | he
    · have := h.early e he; omega
    · simp only [List.mem_singleton] at he; subst he; right; exact ⟨rfl, by simp⟩
  · intro e he
    rcases List.mem_append.1 he with he | he
    · exact h.cols e he
    · simp only [List.mem_singleton] at he; subst he; exact h1
  · intro e he
    rcases List.mem_append.1 he with he | he
    · exact h.real e he
    · simp only [List.mem_singleton] at he; subst he; exact h2
  · intro c k' m' hk'
    by_cases hcc : c = col
    · subst hcc
      rw [rowspan] at hk'
      split at hk'
      · rw [dget_dset_self] at hk'
        cases hk'
        refine ⟨_, List.mem_append_right _ (List.mem_singleton.2 rfl), rfl, rfl, by omega, ?_⟩
        rw [if_pos (by omega)]
        dsimp only
        omega
      · rw [hr] at hk'; cases hk'
    · rw [hget c hcc] at hk'
      obtain ⟨e', a1, a2, a3, a4, a5⟩ := h.ent c k' m' hk'
      refine ⟨e', List.mem_append_left _ a1, a2, a3, a4, ?_⟩
      have : (if c < col + 1 then r + 1 else r) = if c < col then r + 1 else r := by split <;> split <;> omega
      rw [this]
      exact a5
  · intro e he hp
    rcases List.mem_append.1 he with he | he
    · by_cases hcc : e.col = col
      · exfalso
        rw [hcc, if_pos (by omega)] at hp
        exact hfree e he ⟨by have := h.early e he; omega, by omega, by omega, by omega⟩
      · rw [hget _ hcc]
        refine h.pend e he ?_
        have : (if e.col < col + 1 then r + 1 else r) = if e.col < col then r + 1 else r := by split <;> split <;> omega
        rwa [this] at hp
    · simp only [List.mem_singleton] at he
      subst he
      dsimp only at hp ⊢
      rw [if_pos (by omega)] at hp
      rw [rowspan, if_pos (by omega), dget_dset_self]
      exact ⟨_, rfl⟩
  · intro hpos
    rw [colspan] at hpos ⊢
    refine ⟨_, List.mem_append_right _ (List.mem_singleton.2 rfl), le_refl _, Nat.le_add_right _ _, Nat.lt_succ_self _, by dsimp only; omega, ?_⟩
    dsimp only
    rw [flag]
    rcases h.flag with hf | ⟨hf, -⟩
    · rw [hf hc]; simp
    · have := h4 hf; omega
  · intro e he a1 a2 a3
    rcases List.mem_append.1 he with he | he
    · exfalso
      exact hfree e he ⟨by have := h.early e he; omega, by omega, by omega, by omega⟩
    · simp only [List.mem_singleton] at he
      subst he
      dsimp only
      omega
  · intro e he e' he' p q hc1 hc2
    rcases List.mem_append.1 he with he | he <;> rcases List.mem_append.1 he' with he' | he'
    · exact h.apart e he e' he' p q hc1 hc2
    · simp only [List.mem_singleton] at he'; subst he'; exact absurd hc2 (hap e he p q hc1)
    · simp only [List.mem_singleton] at he; subst he; exact absurd hc1 (hap e' he' p q hc2)
    · simp only [List.mem_singleton] at he he'; rw [he, he']
  · intro p q hq hp
    by_cases hpq : p = r ∧ q = col
    · rw [hpq.1, hpq.2]; exact ⟨_, List.mem_append_right _ (List.mem_singleton.2 rfl), hself⟩
    · obtain ⟨e, he, hcv⟩ := h.cover p q hq (by omega)
      exact ⟨e, List.mem_append_left _ he, hcv⟩
  · rcases h.flag with hf | ⟨hf, -⟩
    · left; intro _; rw [flag]; exact hf hc
    · right; exact ⟨hf, by rw [colspan]; exact h4 hf⟩
  · rintro ⟨e, he, hcv, hl⟩
    rcases List.mem_append.1 he with he | he
    · exact hfree e he hcv
    · simp only [List.mem_singleton] at he; subst he; dsimp only at hl; omega
  · rintro ⟨e, he, hcv, hl⟩
    rcases List.mem_append.1 he with he | he
    · exact hfree e he hcv
    · simp only [List.mem_singleton] at he; subst he; dsimp only at hl; omega

end Verif
