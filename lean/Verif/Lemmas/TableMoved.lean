import Verif.Lemmas.BoxMoved
/-! A table in a moved rectangle: every function of Model/TableRun on a moved table gives the moved result. -/
namespace Verif

variable {σ P B C : Type}

def VLine.mv (dx dy : Rat) (v : VLine B) : VLine B := ⟨v.list.map (BLine.mv dx dy), v.interrupted⟩

def Cell.mp (e : σ → σ) (c : Cell σ C) : Cell σ C := { c with content := c.content.map e }

def Delayed.mp (e : σ → σ) (d : Delayed σ C) : Delayed σ C := { d with content := d.content.map e }

def RowEl.mp (e : σ → σ) : RowEl σ C → RowEl σ C
  | .cell c => .cell (c.map (Cell.mp e))
  | .late d => .late (d.map (Delayed.mp e))

def TConf.mp (e : σ → σ) (ex : σ → Rat → Rat → Rat → Rat → Except PyErr (CellOut σ P B C)) (T : TConf σ P B C) : TConf σ P B C :=
  { T with content := T.content.map (List.map (Option.map (Cell.mp e))), blank := e T.blank, exec := ex }

def TS.mv (e : σ → σ) (m : P → P) (dx dy : Rat) (s : TS σ P B C) : TS σ P B C :=
  { s with
    x := s.x + dx
    y := s.y + dy
    delayed := s.delayed.map fun d => (d.1, d.2.mp e)
    parts := s.parts.map m
    lines := s.lines.map (BLine.mv dx dy)
    fills := s.fills.map (TFill.mv dx dy)
    fillsMem := s.fillsMem.map fun f => (f.1, f.2.mv dx dy)
    vert := s.vert.map (VLine.mv dx dy)
    topLines := s.topLines.map (BLine.mv dx dy)
    yAbs := s.yAbs + dy
    xAbs := s.xAbs + dx }

theorem modifyLast_map {α β : Type} (g : α → β) (f : α → α) (f' : β → β) (h : ∀ a, f' (g a) = g (f a)) (l : List α) : modifyLast f' (l.map g) = (modifyLast f l).map g := by
  induction l with
  | nil => rfl
  | cons a l ih => cases l with
    | nil => simp [modifyLast, h]
    | cons b l => simp only [List.map, modifyLast] at ih ⊢; rw [ih]

theorem dget_map {K V W : Type} [DecidableEq K] (g : V → W) (k : K) (d : List (K × V)) : dget k (d.map fun p => (p.1, g p.2)) = (dget k d).map g := by
  induction d with
  | nil => rfl
  | cons p d ih => obtain ⟨a, b⟩ := p; simp only [List.map, dget]; rw [ih]; split_ifs <;> rfl

theorem dset_map {K V W : Type} [DecidableEq K] (g : V → W) (k : K) (v : V) (d : List (K × V)) : dset k (g v) (d.map fun p => (p.1, g p.2)) = (dset k v d).map fun p => (p.1, g p.2) := by
  induction d with
  | nil => rfl
  | cons p d ih => obtain ⟨a, b⟩ := p; simp only [List.map, dset]; rw [ih]; split_ifs <;> rfl

theorem ddrop_map {K V W : Type} [DecidableEq K] (g : V → W) (k : K) (d : List (K × V)) : ddrop k (d.map fun p => (p.1, g p.2)) = (ddrop k d).map fun p => (p.1, g p.2) := by
  simp [ddrop, List.filter_map, Function.comp_def]

section
variable [DecidableEq B] (e : σ → σ) (ex : σ → Rat → Rat → Rat → Rat → Except PyErr (CellOut σ P B C)) (m : P → P) (dx dy : Rat)

theorem correction_mv (w : Rat) (i : Bool) (l : List (BLine B)) : correction w i (l.map (BLine.mv dx dy)) = correction w i l := by
  unfold correction
  rw [List.getLast?_map]
  cases l.getLast? <;> rfl

theorem goesOn_mv (i : Bool) (l : List (BLine B)) (b : Bd B) : goesOn i (l.map (BLine.mv dx dy)) b = goesOn i l b := by
  unfold goesOn
  rw [List.getLast?_map]
  cases i <;> cases l.getLast? <;> rfl

theorem topStep_mv (ws : List Rat) (w x y hc : Rat) (col : Nat) (top : Option (Bd B)) (l : List (BLine B)) (i : Bool) :
    topStep ws w (x + dx) (y + dy) hc col top (l.map (BLine.mv dx dy)) i = ((topStep ws w x y hc col top l i).1.map (BLine.mv dx dy), (topStep ws w x y hc col top l i).2) := by
  unfold topStep
  have h1 : ∀ l : List (BLine B), modifyLast (fun a : BLine B => { a with x2 := a.x2 + hc }) (l.map (BLine.mv dx dy)) = (modifyLast (fun a : BLine B => { a with x2 := a.x2 + hc }) l).map (BLine.mv dx dy) :=
    modifyLast_map _ _ _ fun a => by simp only [BLine.mv]; congr 1; ring
  have h2 : ∀ l : List (BLine B), modifyLast (fun a : BLine B => { a with x2 := x + dx + ws.getD col 0 * w }) (l.map (BLine.mv dx dy))
      = (modifyLast (fun a : BLine B => { a with x2 := x + ws.getD col 0 * w }) l).map (BLine.mv dx dy) :=
    modifyLast_map _ _ _ fun a => by simp only [BLine.mv]; congr 1; ring
  have h0 : (if i then l.map (BLine.mv dx dy) else modifyLast (fun a : BLine B => { a with x2 := a.x2 + hc }) (l.map (BLine.mv dx dy)))
      = (if i then l else modifyLast (fun a : BLine B => { a with x2 := a.x2 + hc }) l).map (BLine.mv dx dy) := by
    cases i
    · simp [h1]
    · rfl
  dsimp only
  rw [h0]
  generalize (if i then l else modifyLast (fun a : BLine B => { a with x2 := a.x2 + hc }) l) = l'
  cases top with
  | none => rfl
  | some b =>
    simp only [goesOn_mv, h2]
    split_ifs
    · rfl
    · simp only [List.map_append, List.map, BLine.mv, Option.map]
      congr 4 <;> ring
    · rfl

theorem vertStep_mv (x y vc : Rat) (left : Option (Bd B)) (v : VLine B) : vertStep (x + dx) (y + dy) vc left (v.mv dx dy) = (vertStep x y vc left v).mv dx dy := by
  unfold vertStep
  have h1 : ∀ l : List (BLine B), modifyLast (fun a : BLine B => { a with y2 := some (y + dy - vc) }) (l.map (BLine.mv dx dy))
      = (modifyLast (fun a : BLine B => { a with y2 := some (y - vc) }) l).map (BLine.mv dx dy) :=
    modifyLast_map _ _ _ fun a => by simp only [BLine.mv, Option.map]; congr 2; ring
  have h2 : ∀ (l l' : List (BLine B)) (i : Bool), (match left with
      | none => (⟨l'.map (BLine.mv dx dy), true⟩ : VLine B)
      | some b =>
        if b.width > 0 then
          if goesOn i (l.map (BLine.mv dx dy)) b then ⟨l'.map (BLine.mv dx dy), i⟩
          else ⟨l'.map (BLine.mv dx dy) ++ [(⟨x + dx, y + dy + vc, x + dx, none, b.width, b.look⟩ : BLine B)], false⟩
        else ⟨l'.map (BLine.mv dx dy), true⟩) = (match left with
      | none => (⟨l', true⟩ : VLine B)
      | some b =>
        if b.width > 0 then
          if goesOn i l b then ⟨l', i⟩
          else ⟨l' ++ [(⟨x, y + vc, x, none, b.width, b.look⟩ : BLine B)], false⟩
        else ⟨l', true⟩).mv dx dy := by
    intro l l' i
    cases left with
    | none => rfl
    | some b =>
      simp only [goesOn_mv]
      split_ifs
      · rfl
      · simp only [VLine.mv, List.map_append, List.map, BLine.mv, Option.map]
        congr 4; ring
      · rfl
  obtain ⟨l, i⟩ := v
  cases i with
  | true => exact h2 l l true
  | false =>
    have := h2 l (modifyLast (fun a : BLine B => { a with y2 := some (y - vc) }) l) false
    rw [← h1] at this
    exact this

theorem processBorders_mv (T : TConf σ P B C) (s : TS σ P B C) (col : Nat) (left top : Option (Bd B)) :
    (s.mv e m dx dy).processBorders (T.mp e ex) col left top = (s.processBorders T col left top).mv e m dx dy := by
  unfold TS.processBorders
  have hv : (s.vert.map (VLine.mv dx dy)).getD col ⟨[], true⟩ = (s.vert.getD col ⟨[], true⟩).mv dx dy := by
    simp only [List.getD_eq_getElem?_getD, List.getElem?_map]
    cases s.vert[col]? <;> rfl
  have hm : ∀ vc, (s.vert.map (VLine.mv dx dy)).modify col (vertStep (s.xAbs + dx) (s.yAbs + dy) vc left) = (s.vert.modify col (vertStep s.xAbs s.yAbs vc left)).map (VLine.mv dx dy) := by
    intro vc
    apply List.ext_getElem?
    intro i
    simp only [List.getElem?_modify, List.getElem?_map]
    cases s.vert[i]? with
    | none => rfl
    | some v => simp only [Option.map]; split_ifs <;> simp [vertStep_mv]
  simp only [TS.mv, TConf.mp, hv, VLine.mv, correction_mv, topStep_mv, hm]

omit [DecidableEq B] in
theorem isSpan_mv (s : TS σ P B C) (col : Nat) (left top : Bd B) (late : Bool) :
    (s.mv e m dx dy).isSpan col left top late = ((s.isSpan col left top late).1, (s.isSpan col left top late).2.1, (s.isSpan col left top late).2.2.1, (s.isSpan col left top late).2.2.2.mv e m dx dy) := by
  unfold TS.isSpan
  rw [show (s.mv e m dx dy).rowspan = s.rowspan from rfl]
  cases dget col s.rowspan with
  | none =>
    dsimp only
    by_cases h : 0 < s.colspan
    · rw [if_pos h, if_pos (show 0 < (s.mv e m dx dy).colspan from h)]; rfl
    · rw [if_neg h, if_neg (show ¬ 0 < (s.mv e m dx dy).colspan from h)]
  | some p =>
    obtain ⟨r, c⟩ := p
    dsimp only
    cases late with
    | true => rfl
    | false =>
      by_cases h : r = 1
      · simp only [if_pos h]
        simp [TS.mv, List.map_map, Function.comp_def, TFill.mv]
        intro a b _
        split_ifs <;> rfl
      · simp only [if_neg h]; rfl

omit [DecidableEq B] in
theorem element_mp (T : TConf σ P B C) (i : Nat) (el : RowEl σ C) : (T.mp e ex).element i (el.mp e) = (T.element i el).mp e := by
  cases el with
  | cell c => cases c <;> rfl
  | late d => cases d with
    | none => rfl
    | some d =>
      obtain ⟨st, c, r, i', k⟩ := d
      cases k <;> rfl

omit [DecidableEq B] in
theorem cellBox_mv (T : TConf σ P B C) (s : TS σ P B C) (col : Nat) (left top : Bd B) (d : Delayed σ C) :
    (s.mv e m dx dy).cellBox (T.mp e ex) col left top (d.mp e) = { s.cellBox T col left top d with x := (s.cellBox T col left top d).x + dx, y := (s.cellBox T col left top d).y + dy } := by
  simp only [TS.cellBox, TS.mv, TConf.mp, Delayed.mp, Delayed.rowsLeft]
  congr 1 <;> ring

omit [DecidableEq B] in
theorem setFill_mv (T : TConf σ P B C) (s : TS σ P B C) (col : Nat) (own : Option C) (w : Rat) (l : Bool) :
    (s.mv e m dx dy).setFill (T.mp e ex) col own w l = (s.setFill T col own w l).mv e m dx dy := by
  unfold TS.setFill
  rw [show (T.mp e ex).fillDef = T.fillDef from rfl, show (s.mv e m dx dy).index = s.index from rfl]
  cases own.or (T.fillDef s.index col) with
  | none => rfl
  | some c =>
    have h := dset_map (TFill.mv dx dy) col (⟨s.xAbs, s.yAbs, w, 0, c, l⟩ : TFill C) s.fillsMem
    simp only [TS.mv]
    rw [← h]; rfl

omit [DecidableEq B] in
theorem addOut_mv (s : TS σ P B C) (col : Nat) (d : Delayed σ C) (o : CellOut σ P B C) :
    (s.mv e m dx dy).addOut col (d.mp e) (o.mv e m dx dy) = (s.addOut col d o).mv e m dx dy := by
  have h1 := ddrop_map (Delayed.mp e) col s.delayed
  have h2 := dset_map (Delayed.mp e) col { d with content := some o.next } s.delayed
  have hd : ({ d.mp e with content := some (e o.next) } : Delayed σ C) = Delayed.mp e { d with content := some o.next } := rfl
  cases h : o.finished
  · simp [TS.addOut, TS.mv, CellOut.mv, h, hd, h2]
  · simp [TS.addOut, TS.mv, CellOut.mv, h, ← h1]

variable {e ex m dx dy}

omit [DecidableEq B] in
theorem addContent_mv {T : TConf σ P B C} (hE : Shifts T.exec ex e m dx dy) (s : TS σ P B C) (col : Nat) (d : Delayed σ C) (b : CellBox) :
    (s.mv e m dx dy).addContent (T.mp e ex) col (d.mp e) { b with x := b.x + dx, y := b.y + dy } = (s.addContent T col d b).map fun r => (r.1, r.2.mv e m dx dy) := by
  unfold TS.addContent
  cases hc : d.content with
  | none =>
    have h := dset_map (Delayed.mp e) col d s.delayed
    have hk : (d.mp e).content = none := by simp [Delayed.mp, hc]
    simp [hk, Except.map, TS.mv, h]
  | some c =>
    simp only [Delayed.mp, hc, Option.map]
    rw [show (T.mp e ex).exec = ex from rfl, hE]
    cases T.exec c b.x b.y b.width b.height with
    | error x => rfl
    | ok o =>
      have h := addOut_mv e m dx dy s col d o
      simp only [Delayed.mp, hc, Option.map] at h
      simp only [Except.map]
      rw [h]; rfl

omit [DecidableEq B] in
theorem addHeight_mv (s : TS σ P B C) (col : Nat) (r : Int) (p h : Rat) : (s.mv e m dx dy).addHeight col r p h = (s.addHeight col r p h).mv e m dx dy := by
  unfold TS.addHeight
  by_cases hr : r > 0
  · simp only [if_pos hr]; rfl
  · simp only [if_neg hr]; rfl

/-- a cell after `is_span` -/
def cellBody (T : TConf σ P B C) (r : Bool × Bd B × Bd B × TS σ P B C) (col : Nat) (el : RowEl σ C) : Except PyErr (TS σ P B C) :=
  let s := r.2.2.2.processBorders T col (some r.2.1) (some r.2.2.1)
  if r.1 then .ok s
  else
    let d := T.element s.index el
    let s := { s with
      colspan := d.cols
      rowspan := if d.rowsLeft s.index > 0 then dset col ((d.rowsLeft s.index).toNat, d.cols) s.rowspan else s.rowspan }
    let b := s.cellBox T col r.2.1 r.2.2.1 d
    match (s.setFill T col d.style.fill (b.width + b.padX) (decide (d.rowsLeft s.index > 0))).addContent T col d b with
    | .error e => .error e
    | .ok (h, s) => .ok (s.addHeight col (d.rowsLeft s.index) b.padY h)

theorem addCell_body (T : TConf σ P B C) (s : TS σ P B C) (col : Nat) (el : RowEl σ C) (late : Bool) :
    s.addCell T col el late = cellBody T (({ s with xAbs := colX T.widths s.x s.width col } : TS σ P B C).isSpan col (T.border s.index col true) (T.border s.index col false) late) col el := rfl

/-- a cell whose content is run -/
def cellEnd (T : TConf σ P B C) (left top : Bd B) (s : TS σ P B C) (col : Nat) (d : Delayed σ C) : Except PyErr (TS σ P B C) :=
  match (s.setFill T col d.style.fill ((s.cellBox T col left top d).width + (s.cellBox T col left top d).padX) (decide (d.rowsLeft s.index > 0))).addContent T col d (s.cellBox T col left top d) with
    | .error e => .error e
    | .ok (h, s') => .ok (s'.addHeight col (d.rowsLeft s'.index) (s.cellBox T col left top d).padY h)

omit [DecidableEq B] in
theorem cellEnd_mv {T : TConf σ P B C} (hE : Shifts T.exec ex e m dx dy) (left top : Bd B) (s : TS σ P B C) (col : Nat) (d : Delayed σ C) :
    cellEnd (T.mp e ex) left top (s.mv e m dx dy) col (d.mp e) = (cellEnd T left top s col d).map (TS.mv e m dx dy) := by
  unfold cellEnd
  rw [cellBox_mv, show (d.mp e).style = d.style from rfl, show (d.mp e).rowsLeft = d.rowsLeft from rfl, setFill_mv, addContent_mv hE]
  rw [show (s.mv e m dx dy).index = s.index from rfl]
  cases (s.setFill T col d.style.fill ((s.cellBox T col left top d).width + (s.cellBox T col left top d).padX) (decide (d.rowsLeft s.index > 0))).addContent T col d (s.cellBox T col left top d) with
  | error x => rfl
  | ok r => simp only [Except.map, addHeight_mv]; rfl

/-- the spans of a cell, and the rest -/
def cellMid (T : TConf σ P B C) (left top : Bd B) (s : TS σ P B C) (col : Nat) (d : Delayed σ C) : Except PyErr (TS σ P B C) :=
  cellEnd T left top { s with
      colspan := d.cols
      rowspan := if d.rowsLeft s.index > 0 then dset col ((d.rowsLeft s.index).toNat, d.cols) s.rowspan else s.rowspan } col d

omit [DecidableEq B] in
theorem cellMid_mv {T : TConf σ P B C} (hE : Shifts T.exec ex e m dx dy) (left top : Bd B) (s : TS σ P B C) (col : Nat) (d : Delayed σ C) :
    cellMid (T.mp e ex) left top (s.mv e m dx dy) col (d.mp e) = (cellMid T left top s col d).map (TS.mv e m dx dy) :=
  cellEnd_mv hE left top { s with
      colspan := d.cols
      rowspan := if d.rowsLeft s.index > 0 then dset col ((d.rowsLeft s.index).toNat, d.cols) s.rowspan else s.rowspan } col d

theorem cellBody_mv {T : TConf σ P B C} (hE : Shifts T.exec ex e m dx dy) (b : Bool) (left top : Bd B) (s1 : TS σ P B C) (col : Nat) (el : RowEl σ C) :
    cellBody (T.mp e ex) (b, left, top, s1.mv e m dx dy) col (el.mp e) = (cellBody T (b, left, top, s1) col el).map (TS.mv e m dx dy) := by
  cases b with
  | true => simp only [cellBody, processBorders_mv]; rfl
  | false =>
    have h1 : ∀ (T : TConf σ P B C) (s1 : TS σ P B C) (el : RowEl σ C), cellBody T (false, left, top, s1) col el
        = cellMid T left top (s1.processBorders T col (some left) (some top)) col (T.element (s1.processBorders T col (some left) (some top)).index el) := fun _ _ _ => rfl
    rw [h1, h1, processBorders_mv, show ((s1.processBorders T col (some left) (some top)).mv e m dx dy).index = (s1.processBorders T col (some left) (some top)).index from rfl, element_mp]
    exact cellMid_mv hE left top (s1.processBorders T col (some left) (some top)) col (T.element (s1.processBorders T col (some left) (some top)).index el)

theorem addCell_mv {T : TConf σ P B C} (hE : Shifts T.exec ex e m dx dy) (s : TS σ P B C) (col : Nat) (el : RowEl σ C) (late : Bool) :
    (s.mv e m dx dy).addCell (T.mp e ex) col (el.mp e) late = (s.addCell T col el late).map (TS.mv e m dx dy) := by
  have h0 : ({ s.mv e m dx dy with xAbs := colX (T.mp e ex).widths (s.mv e m dx dy).x (s.mv e m dx dy).width col } : TS σ P B C)
      = ({ s with xAbs := colX T.widths s.x s.width col } : TS σ P B C).mv e m dx dy := by
    simp only [TS.mv, TConf.mp, colX]; congr 1; ring
  rw [addCell_body, addCell_body, h0, isSpan_mv]
  exact cellBody_mv hE _ _ _ _ col el

theorem addCells_mv {T : TConf σ P B C} (hE : Shifts T.exec ex e m dx dy) (late : Bool) (l : List (RowEl σ C)) : ∀ (col : Nat) (s : TS σ P B C),
    (s.mv e m dx dy).addCells (T.mp e ex) late col (l.map (RowEl.mp e)) = (s.addCells T late col l).map (TS.mv e m dx dy) := by
  induction l with
  | nil => intro col s; rfl
  | cons el l ih =>
    intro col s
    simp only [List.map, TS.addCells, addCell_mv hE]
    cases s.addCell T col el late with
    | error x => rfl
    | ok s' => exact ih _ _

omit [DecidableEq B] in
theorem canGoOn_mv (T : TConf σ P B C) (s : TS σ P B C) : (s.mv e m dx dy).canGoOn (T.mp e ex) = s.canGoOn T := by
  have h1 : (s.mv e m dx dy).delayed.map (fun d => d.2.cols + 1) = s.delayed.map fun d => d.2.cols + 1 := by simp [TS.mv, Delayed.mp, List.map_map, Function.comp_def]
  have h2 : ((s.mv e m dx dy).delayed.all fun d => (dget d.1 (s.mv e m dx dy).rowspan).isSome) = s.delayed.all fun d => (dget d.1 s.rowspan).isSome := by
    simp [TS.mv, List.all_map, Function.comp_def]
  unfold TS.canGoOn
  rw [h1, h2]; rfl

theorem endRow_mv (T : TConf σ P B C) (s : TS σ P B C) : (s.mv e m dx dy).endRow (T.mp e ex) = (s.endRow T).mv e m dx dy := by
  unfold TS.endRow
  simp only [canGoOn_mv]
  have h0 : ({ s.mv e m dx dy with xAbs := (s.mv e m dx dy).x + (s.mv e m dx dy).width } : TS σ P B C) = ({ s with xAbs := s.x + s.width } : TS σ P B C).mv e m dx dy := by
    simp only [TS.mv]; congr 1; ring
  rw [h0, show (T.mp e ex).border = T.border from rfl, show (T.mp e ex).cols = T.cols from rfl, processBorders_mv]
  rw [show (s.mv e m dx dy).index = s.index from rfl]
  generalize ({ s with xAbs := s.x + s.width } : TS σ P B C).processBorders T T.cols (some (T.border s.index T.cols true)) none = s1
  generalize s.canGoOn T = ret
  have hg : ∀ (h : Rat) (f : TFill C), (f.mv dx dy).grow h = (f.grow h).mv dx dy := fun h f => rfl
  have hs : ∀ f : TFill C, ({ f.mv dx dy with y := (f.mv dx dy).y - (f.mv dx dy).height } : TFill C) = ({ f with y := f.y - f.height } : TFill C).mv dx dy := by
    intro f; simp only [TFill.mv]; congr 1; ring
  simp only [TS.mv, List.map_append, List.map_map, Function.comp_def, List.filter_map, hg, hs]
  simp only [TFill.mv, TFill.grow]

theorem addRow_mv {T : TConf σ P B C} (hE : Shifts T.exec ex e m dx dy) (s : TS σ P B C) (row : List (RowEl σ C)) (late : Bool) :
    (s.mv e m dx dy).addRow (T.mp e ex) (row.map (RowEl.mp e)) late = (s.addRow T row late).map fun r => (r.1, r.2.mv e m dx dy) := by
  unfold TS.addRow
  rw [List.length_map, show (T.mp e ex).cols = T.cols from rfl]
  by_cases hl : row.length ≠ T.cols
  · rw [if_pos hl, if_pos hl]; rfl
  · rw [if_neg hl, if_neg hl]
    have h0 : ({ s.mv e m dx dy with
        maxHeight := 0
        rowMax := (s.mv e m dx dy).height - (s.mv e m dx dy).currentHeight
        colspan := 0
        topLines := []
        topInt := true
        isRowspan := false
        yAbs := (s.mv e m dx dy).y - (s.mv e m dx dy).currentHeight } : TS σ P B C) = ({ s with
        maxHeight := 0
        rowMax := s.height - s.currentHeight
        colspan := 0
        topLines := []
        topInt := true
        isRowspan := false
        yAbs := s.y - s.currentHeight } : TS σ P B C).mv e m dx dy := by
      simp only [TS.mv, List.map]; congr 1; ring
    dsimp only
    rw [h0, addCells_mv hE]
    cases ({ s with
        maxHeight := 0
        rowMax := s.height - s.currentHeight
        colspan := 0
        topLines := []
        topInt := true
        isRowspan := false
        yAbs := s.y - s.currentHeight } : TS σ P B C).addCells T late 0 row with
    | error x => rfl
    | ok s1 =>
      simp only [Except.map]
      by_cases hf : s1.firstRow = true ∧ s1.maxHeight = 0
      · rw [if_pos hf, if_pos (show (s1.mv e m dx dy).firstRow = true ∧ (s1.mv e m dx dy).maxHeight = 0 from hf)]; rfl
      · rw [if_neg hf, if_neg (show ¬ ((s1.mv e m dx dy).firstRow = true ∧ (s1.mv e m dx dy).maxHeight = 0) from hf)]
        rw [show ({ s1.mv e m dx dy with firstRow := false } : TS σ P B C) = ({ s1 with firstRow := false } : TS σ P B C).mv e m dx dy from rfl, endRow_mv, canGoOn_mv]

theorem addRows_mv {T : TConf σ P B C} (hE : Shifts T.exec ex e m dx dy) (rows : List (List (Option (Cell σ C)))) : ∀ s : TS σ P B C,
    (s.mv e m dx dy).addRows (T.mp e ex) (rows.map (List.map (Option.map (Cell.mp e)))) = (s.addRows T rows).map fun r => (r.1, r.2.mv e m dx dy) := by
  induction rows with
  | nil => intro s; rfl
  | cons row l ih =>
    intro s
    have hr : (row.map (Option.map (Cell.mp e))).map RowEl.cell = (row.map RowEl.cell).map (RowEl.mp e) := by simp [List.map_map, Function.comp_def, RowEl.mp]
    simp only [List.map, TS.addRows]
    rw [hr, addRow_mv hE]
    cases s.addRow T (row.map .cell) false with
    | error x => rfl
    | ok r =>
      obtain ⟨a, s1⟩ := r
      cases a with
      | cancel => rfl
      | interrupt => rfl
      | «continue» => exact ih { s1 with index := s1.index + 1 }

theorem closeCol_mv (T : TConf σ P B C) (s : TS σ P B C) (col : Nat) : (s.mv e m dx dy).closeCol (T.mp e ex) col = (s.closeCol T col).mv e m dx dy := by
  unfold TS.closeCol
  have h0 : ({ s.mv e m dx dy with xAbs := colX (T.mp e ex).widths (s.mv e m dx dy).x (s.mv e m dx dy).width col } : TS σ P B C)
      = ({ s with xAbs := colX T.widths s.x s.width col } : TS σ P B C).mv e m dx dy := by
    simp only [TS.mv, TConf.mp, colX]; congr 1; ring
  dsimp only
  rw [h0, processBorders_mv]; rfl

theorem close_mv (T : TConf σ P B C) (s : TS σ P B C) : (s.mv e m dx dy).close (T.mp e ex) = (s.close T).mv e m dx dy := by
  unfold TS.close
  have h0 : ({ s.mv e m dx dy with topLines := [], topInt := true, yAbs := (s.mv e m dx dy).y - (s.mv e m dx dy).currentHeight } : TS σ P B C)
      = ({ s with topLines := [], topInt := true, yAbs := s.y - s.currentHeight } : TS σ P B C).mv e m dx dy := by
    simp only [TS.mv, List.map]; congr 1; ring
  have hf : ∀ (l : List Nat) (s : TS σ P B C), l.foldl (fun s col => s.closeCol (T.mp e ex) col) (s.mv e m dx dy) = (l.foldl (fun s col => s.closeCol T col) s).mv e m dx dy := by
    intro l
    induction l with
    | nil => intro s; rfl
    | cons a l ih => intro s; simp only [List.foldl, closeCol_mv, ih]
  dsimp only
  rw [h0, show (T.mp e ex).cols = T.cols from rfl, hf]
  generalize (List.range T.cols).foldl (fun s col => s.closeCol T col) ({ s with topLines := [], topInt := true, yAbs := s.y - s.currentHeight } : TS σ P B C) = s1
  have h1 : ({ s1.mv e m dx dy with xAbs := (s1.mv e m dx dy).x + (s1.mv e m dx dy).width } : TS σ P B C) = ({ s1 with xAbs := s1.x + s1.width } : TS σ P B C).mv e m dx dy := by
    simp only [TS.mv]; congr 1; ring
  rw [h1, processBorders_mv]
  generalize ({ s1 with xAbs := s1.x + s1.width } : TS σ P B C).processBorders T T.cols none none = s2
  simp [TS.mv, TConf.mp, List.flatMap_map, List.map_flatMap, VLine.mv]

theorem addLate_mv {T : TConf σ P B C} (hE : Shifts T.exec ex e m dx dy) (s : TS σ P B C) :
    (s.mv e m dx dy).addLate (T.mp e ex) = (s.addLate T).map fun r => (r.1, r.2.mv e m dx dy) := by
  unfold TS.addLate
  have he : (s.mv e m dx dy).delayed.isEmpty = s.delayed.isEmpty := by simp [TS.mv]
  rw [he]
  cases hd : s.delayed.isEmpty with
  | true => rfl
  | false =>
    have hr : (List.range (T.mp e ex).cols).map (fun i => RowEl.late (dget i (s.mv e m dx dy).delayed)) = ((List.range T.cols).map fun i => RowEl.late (dget i s.delayed)).map (RowEl.mp e) := by
      simp only [List.map_map, Function.comp_def, RowEl.mp, ← dget_map]; rfl
    simp only [Bool.false_eq_true, if_false]
    rw [hr, addRow_mv hE]
    cases s.addRow T ((List.range T.cols).map fun i => .late (dget i s.delayed)) true with
    | error x => rfl
    | ok r => obtain ⟨a, s1⟩ := r; cases a <;> rfl

/-- what is set before it is read -/
def TS.stale (a b : Rat) (t : List (BLine B)) (s : TS σ P B C) : TS σ P B C := { s with xAbs := a, yAbs := b, topLines := t }

theorem addRow_stale (T : TConf σ P B C) (s : TS σ P B C) (row : List (RowEl σ C)) (late : Bool) (a b : Rat) (t : List (BLine B)) :
    (s.stale a b t).addRow T row late = s.addRow T row late ∨
      ∃ s1 a1 b1 t1, s.addRow T row late = .ok (.cancel, s1) ∧ (s.stale a b t).addRow T row late = .ok (.cancel, s1.stale a1 b1 t1) := by
  unfold TS.addRow
  by_cases hl : row.length ≠ T.cols
  · rw [if_pos hl, if_pos hl]; exact .inl rfl
  · rw [if_neg hl, if_neg hl]
    cases row with
    | cons el row => exact .inl rfl
    | nil =>
      simp only [TS.addCells, TS.stale]
      by_cases hf : s.firstRow = true
      · refine .inr ⟨{ s with firstRow := false, maxHeight := 0, rowMax := s.height - s.currentHeight, colspan := 0, topLines := [], topInt := true, isRowspan := false, yAbs := s.y - s.currentHeight },
          a, s.y - s.currentHeight, [], ?_, ?_⟩
        · simp [hf]
        · simp [hf]
      · refine .inl ?_
        simp only [hf, false_and, if_false]; rfl

theorem addRows_stale (T : TConf σ P B C) (rows : List (List (Option (Cell σ C)))) (s : TS σ P B C) (a b : Rat) (t : List (BLine B)) :
    (s.stale a b t).addRows T rows = s.addRows T rows ∨
      ∃ r s1 a1 b1 t1, s.addRows T rows = .ok (r, s1) ∧ (s.stale a b t).addRows T rows = .ok (r, s1.stale a1 b1 t1) := by
  cases rows with
  | nil => exact .inr ⟨_, _, a, b, t, rfl, rfl⟩
  | cons row l =>
    simp only [TS.addRows]
    rcases addRow_stale T s (row.map .cell) false a b t with h | ⟨s1, a1, b1, t1, h1, h2⟩
    · rw [h]; exact .inl rfl
    · rw [h1, h2]; exact .inr ⟨_, _, a1, b1, t1, rfl, rfl⟩

theorem close_stale (T : TConf σ P B C) (s : TS σ P B C) (a b : Rat) (t : List (BLine B)) : (s.stale a b t).close T = s.close T := by
  unfold TS.close
  cases h : T.cols with
  | zero => rfl
  | succ n => rw [List.range_succ_eq_map]; rfl

/-- a run after its start -/
def runRest (T : TConf σ P B C) (s : TS σ P B C) : Except PyErr (TS σ P B C) :=
  match s.addLate T with
  | .error e => .error e
  | .ok (false, s) => .ok (s.close T)
  | .ok (true, s) => match s.addRows T (T.content.drop s.index) with
    | .error e => .error e
    | .ok (true, s) => .ok { s with parts := [], lines := [], fills := [] }
    | .ok (false, s) => .ok (s.close T)

/-- the same but for what is set before it is read -/
def UpToStale (r r' : Except PyErr (TS σ P B C)) : Prop := r' = r ∨ ∃ s a b t, r = .ok s ∧ r' = .ok (s.stale a b t)

theorem runRest_rows_stale (T : TConf σ P B C) (s : TS σ P B C) (a b : Rat) (t : List (BLine B)) :
    UpToStale (match s.addRows T (T.content.drop s.index) with
      | .error e => .error e
      | .ok (true, s) => .ok { s with parts := [], lines := [], fills := [] }
      | .ok (false, s) => .ok (s.close T))
    (match (s.stale a b t).addRows T (T.content.drop (s.stale a b t).index) with
      | .error e => .error e
      | .ok (true, s) => .ok { s with parts := [], lines := [], fills := [] }
      | .ok (false, s) => .ok (s.close T)) := by
  rw [show (s.stale a b t).index = s.index from rfl]
  rcases addRows_stale T (T.content.drop s.index) s a b t with h | ⟨r, s1, a1, b1, t1, h1, h2⟩
  · rw [h]; exact .inl rfl
  · rw [h1, h2]
    cases r with
    | true => exact .inr ⟨_, a1, b1, t1, rfl, rfl⟩
    | false => exact .inl (by simp only [close_stale])

theorem runRest_stale (T : TConf σ P B C) (s : TS σ P B C) (a b : Rat) (t : List (BLine B)) : UpToStale (runRest T s) (runRest T (s.stale a b t)) := by
  unfold runRest TS.addLate
  rw [show (s.stale a b t).delayed = s.delayed from rfl]
  cases hd : s.delayed.isEmpty with
  | true => exact runRest_rows_stale T s a b t
  | false =>
    simp only [Bool.false_eq_true, if_false]
    rcases addRow_stale T s ((List.range T.cols).map fun i => .late (dget i s.delayed)) true a b t with h | ⟨s1, a1, b1, t1, h1, h2⟩
    · rw [h]; exact .inl rfl
    · rw [h1, h2]; exact .inl (by simp only [close_stale])

theorem runRest_mv {T : TConf σ P B C} (hE : Shifts T.exec ex e m dx dy) (s : TS σ P B C) : runRest (T.mp e ex) (s.mv e m dx dy) = (runRest T s).map (TS.mv e m dx dy) := by
  unfold runRest
  rw [addLate_mv hE]
  cases s.addLate T with
  | error x => rfl
  | ok r =>
    obtain ⟨b, s1⟩ := r
    cases b with
    | false => simp only [Except.map, close_mv]
    | true =>
      have h : (T.mp e ex).content.drop (s1.mv e m dx dy).index = (T.content.drop s1.index).map (List.map (Option.map (Cell.mp e))) := by
        simp [TConf.mp, TS.mv, List.map_drop]
      simp only [Except.map]
      rw [h, addRows_mv hE]
      cases s1.addRows T (T.content.drop s1.index) with
      | error x => rfl
      | ok r =>
        obtain ⟨b, s2⟩ := r
        cases b with
        | true => rfl
        | false => simp only [Except.map, close_mv]

omit [DecidableEq B] in
theorem line_mv_mv (a b c d : Rat) (l : BLine B) : (l.mv a b).mv c d = l.mv (a + c) (b + d) := by
  obtain ⟨x1, y1, x2, y2, w, k⟩ := l
  cases y2 <;> simp [BLine.mv, add_assoc]

omit [DecidableEq B] in
theorem line_mv_zero (l : BLine B) : l.mv 0 0 = l := by
  obtain ⟨x1, y1, x2, y2, w, k⟩ := l
  cases y2 <;> simp [BLine.mv]

/-- tables that stand in different places and go on in the same way -/
def TS.Alike (e : σ → σ) (s s' : TS σ P B C) : Prop := ∃ m dx dy a b t, s' = (s.mv e m dx dy).stale a b t

/-- a run of a table -/
theorem tableRun_mv {T : TConf σ P B C} (hE : Shifts T.exec ex e m dx dy) (s s' : TS σ P B C) (hs : s.Alike e s') (x y w h : Rat) :
    UpToStale ((s.run T x y w h).map (TS.mv e m dx dy)) (s'.run (T.mp e ex) (x + dx) (y + dy) w h) := by
  obtain ⟨m', dx', dy', a, b, t, rfl⟩ := hs
  have h0 : ((s.mv e m' dx' dy').stale a b t).clear (T.mp e ex) (x + dx) (y + dy) w h = ((s.clear T x y w h).mv e m dx dy).stale a b t := by
    simp [TS.clear, TS.mv, TS.stale, TConf.mp, VLine.mv]
  have h1 := runRest_stale (T.mp e ex) ((s.clear T x y w h).mv e m dx dy) a b t
  rw [← h0, runRest_mv hE] at h1
  exact h1

end

end Verif
