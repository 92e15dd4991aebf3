import Verif.Props.C66_TableLines
import Verif.Spec.InCells
import Verif.Lemmas.DocLeaf
/-!
# C83: what a cell holds is shown inside of the cell

Text and images of a table are inside of the borders and margins of their cells, so that those of different cells never overlap. -/
namespace Verif
open Spec

variable {σ P B C : Type} [DecidableEq B] {T : TConf σ P B C}

theorem Spec.Drawing.tops {X : Nat → Rat} {y : Rat} {late : Option (List (Nat × Delayed σ C))} {base last : Nat} {bottom floor : Rat} {rows : List (GridRow B)}
    {cells : List (Tile C)} {outs : List (Tile C × CellOut σ P B C)} {parts : List P} {lines : List (BLine B)} {fills : List (TFill C)}
    (h : Drawing T X y late base last bottom floor rows cells outs parts lines fills) {i j : Nat} (hij : i ≤ j) (hj : j < rows.length) :
    topY rows j ≤ topY rows i := by
  induction j with
  | zero => rw [show i = 0 by omega]
  | succ j ih =>
    rcases Nat.lt_or_ge j i with hlt | hge
    · rw [show i = j + 1 by omega]
    · exact le_trans (h.down j hj) (ih hge (by omega))

theorem pair_of_fst_nodup {α β : Type} : ∀ {l : List (α × β)}, (l.map Prod.fst).Nodup → ∀ {p q : α × β}, p ∈ l → q ∈ l → p.1 = q.1 → p = q
  | [], _, _, _, hp, _, _ => by cases hp
  | a :: l, h, p, q, hp, hq, he => by
    simp only [List.map_cons, List.nodup_cons] at h
    rcases List.mem_cons.1 hp with h1 | h1 <;> rcases List.mem_cons.1 hq with h2 | h2
    · rw [h1, h2]
    · exact absurd (List.mem_map.2 ⟨q, h2, by rw [← he, h1]⟩) h.1
    · exact absurd (List.mem_map.2 ⟨p, h1, by rw [he, h2]⟩) h.1
    · exact pair_of_fst_nodup h.2 h1 h2 he

/-- what is seen of a cell is inside of it -/
theorem Spec.Drawing.inner {X : Nat → Rat} {y : Rat} {late : Option (List (Nat × Delayed σ C))} {base last : Nat} {bottom floor : Rat} {rows : List (GridRow B)}
    {cells : List (Tile C)} {outs : List (Tile C × CellOut σ P B C)} {parts : List P} {lines : List (BLine B)} {fills : List (TFill C)}
    (h : Drawing T X y late base last bottom floor rows cells outs parts lines fills) {area : P → Area} (hk : KeepsArea area T.exec)
    {q : Tile C × CellOut σ P B C} (hq : q ∈ outs) {p : P} (hp : p ∈ q.2.parts) (hs : (area p).Seen) :
    (area p).Within (q.1.inner T late base X (topY rows) floor (rows.length - 1)) := by
  obtain ⟨⟨c, -, hc⟩, room⟩ := h.ran q hq
  obtain ⟨k1, k2⟩ := hk _ _ _ _ _ _ hc
  obtain ⟨a1, a2, a3, a4⟩ := k2 p hp
  simp only at a1 a2 a3 a4
  unfold Area.Seen at hs
  have h0 : 0 < q.2.height := by linarith
  have h1 := k1 h0
  refine ⟨a1, by simp only [Tile.inner]; linarith, a3, ?_⟩
  simp only [Tile.inner]
  split
  · rename_i hlt
    have := room h0 hlt
    rcases max_cases floor (topY rows (q.1.row + q.1.rows + 1)) with ⟨e, -⟩ | ⟨e, -⟩ <;> rw [e] <;> linarith
  · linarith

/-- the insides of different cells have nothing in common -/
theorem Spec.Drawing.apart {X : Nat → Rat} {y : Rat} {late : Option (List (Nat × Delayed σ C))} {base last : Nat} {bottom floor : Rat} {rows : List (GridRow B)}
    {cells : List (Tile C)} {outs : List (Tile C × CellOut σ P B C)} {parts : List P} {lines : List (BLine B)} {fills : List (TFill C)}
    (h : Drawing T X y late base last bottom floor rows cells outs parts lines fills) (hX : Monotone X)
    (hpad : ∀ e ∈ cells, 0 ≤ padLeft T late base e ∧ 0 ≤ padRight T late base e ∧ 0 ≤ padTop T late base e ∧ 0 ≤ padBottom T late base e)
    {e e' : Tile C} (he : e ∈ cells) (he' : e' ∈ cells) (hne : e ≠ e') {a b : Area} (ha : a.Within (e.inner T late base X (topY rows) floor (rows.length - 1)))
    (hb : b.Within (e'.inner T late base X (topY rows) floor (rows.length - 1))) : a.Apart b := by
  have key : ∀ {e e' : Tile C}, e ∈ cells → e' ∈ cells → ∀ {a b : Area}, a.Within (e.inner T late base X (topY rows) floor (rows.length - 1)) →
      b.Within (e'.inner T late base X (topY rows) floor (rows.length - 1)) →
      (e.col + e.cols < e'.col → a.right ≤ b.left) ∧ (e.row + e.rows < e'.row → b.top ≤ a.bottom) := by
    intro e e' he he' a b ha hb
    obtain ⟨p1, p2, p3, p4⟩ := hpad e he
    obtain ⟨q1, q2, q3, q4⟩ := hpad e' he'
    obtain ⟨a1, a2, a3, a4⟩ := ha
    obtain ⟨b1, b2, b3, b4⟩ := hb
    simp only [Tile.inner] at a2 a4 b1 b3
    refine ⟨fun hlt => ?_, fun hlt => ?_⟩
    · have := hX (show e.col + e.cols + 1 ≤ e'.col from hlt)
      linarith
    · have hin := (h.inside e' he').1
      rw [if_pos (by omega)] at a4
      have h1 := h.tops (show e.row + e.rows + 1 ≤ e'.row from hlt) (by omega)
      have h2 := le_max_right floor (topY rows (e.row + e.rows + 1))
      linarith
  obtain ⟨k1, k2⟩ := key he he' ha hb
  obtain ⟨k3, k4⟩ := key he' he hb ha
  by_cases c1 : e.col + e.cols < e'.col
  · exact .inl (k1 c1)
  by_cases c2 : e'.col + e'.cols < e.col
  · exact .inr (.inl (k3 c2))
  by_cases c3 : e.row + e.rows < e'.row
  · exact .inr (.inr (.inl (k2 c3)))
  by_cases c4 : e'.row + e'.rows < e.row
  · exact .inr (.inr (.inr (k4 c4)))
  exfalso
  have i1 := h.inside e he
  have i2 := h.inside e' he'
  obtain ⟨f, -, -, hu⟩ := h.cover (max e.row e'.row) (max e.col e'.col) (by omega) (by omega)
  have := hu e he ⟨by omega, by omega, by omega, by omega⟩
  have := hu e' he' ⟨by omega, by omega, by omega, by omega⟩
  exact hne (by simp_all)

omit [DecidableEq B] in
theorem heldAt_style {s : TS σ P B C} (hd : DelOk T s) (base r c : Nat) :
    StyleOk T (heldAt T (if s.delayed.isEmpty then none else some s.delayed) base r c).style := by
  have cell : ∀ r : Nat, StyleOk T (match cellAt T.content (base + r) c with
    | some cell => (⟨cell.content, cell.style, base + r + cell.rows + 1⟩ : Held σ C)
    | none => ⟨some T.blank, T.style, base + r + 1⟩).style := by
    intro r
    cases h : cellAt T.content (base + r) c with
    | none => exact .inl rfl
    | some v => exact .inr ⟨_, _, v, h, rfl⟩
  unfold heldAt
  split
  · rename_i l hl
    split
    · rename_i d hdg
      split at hl
      · cases hl
      · cases hl
        have := (hd _ _ hdg).2.2.2
        cases d.content with
        | none => exact .inl rfl
        | some _ => exact this
    · exact .inl rfl
  · exact cell _

/-- **C83.** For every table with cells that do not overlap and stay in it, with columns, borders and margins that are not negative, and any contents that keep to
the rectangle they get, after any number of runs: the next run draws nothing, or what is to be seen of its parts belongs to one cell each and is
inside of it, between its borders and margins, and in the rectangle of the run; and what belongs to different cells is apart. Here a cell that spans rows
that are not drawn in this run ends at the end of the rectangle (see `C83_broken_span_false`). Left out (`FlagOk`): tables with both a cell of one column and more than two rows, and a
cell of more than one column. -/
theorem C83_inside_partial (T : TConf σ P B C) (hrects : RectsOk T.content T.cols) (hflag : FlagOk T.content) (hborder : ∀ i j v, 0 ≤ (T.border i j v).width)
    (given : Option (List Rat)) (hcols : 0 < T.cols) (hwidths : tableWidths T.cols given = .ok T.widths) (hpos : ∀ v ∈ T.widths, 0 ≤ v)
    (hmargin : MarginsOk T.style) (hmargins : ∀ i j cell, cellAt T.content i j = some cell → MarginsOk cell.style) (area : P → Area) (hk : KeepsArea area T.exec)
    (x0 y0 w0 h0 : Rat) (rects : List (Rat × Rat × Rat × Rat)) (ps : List P) (s s' : TS σ P B C)
    (hs : (TS.new x0 y0 w0 h0).runs T rects = .ok (ps, s)) (x y w h : Rat) (hw : 0 ≤ w) (hr : s.run T x y w h = .ok s') :
    s'.parts = [] ∨
    ∃ rows cells outs, Drawing T (colX T.widths x w) y (if s.delayed.isEmpty then none else some s.delayed) s.index s'.index (y - s'.currentHeight) (y - h) rows cells outs s'.parts s'.lines s'.fills ∧
      ∀ q ∈ outs, ∀ p ∈ q.2.parts, (area p).Seen →
        (area p).Within (q.1.inner T (if s.delayed.isEmpty then none else some s.delayed) s.index (colX T.widths x w) (topY rows) (y - h) (rows.length - 1)) ∧
        (area p).Within ⟨x, x + w, y, y - h⟩ ∧
        ∀ q' ∈ outs, q' ≠ q → ∀ p' ∈ q'.2.parts, (area p').Seen → (area p).Apart (area p') := by
  obtain ⟨w1, w2, -⟩ := C32_widths_normalised _ _ _ hwidths hcols
  rcases C66_lines_and_fills_partial T hrects hflag hborder given hcols hwidths x0 y0 w0 h0 rects ps s s' hs x y w h hr with h1 | ⟨rows, cells, outs, hd⟩
  · exact .inl h1.2.1
  refine .inr ⟨rows, cells, outs, hd, fun q hq p hp hseen => ?_⟩
  have hT : TableOk T := ⟨hrects, hflag, hborder, w1, w2⟩
  have hpad : ∀ e : Tile C, 0 ≤ padLeft T (if s.delayed.isEmpty then none else some s.delayed) s.index e ∧
      0 ≤ padRight T (if s.delayed.isEmpty then none else some s.delayed) s.index e ∧ 0 ≤ padTop T (if s.delayed.isEmpty then none else some s.delayed) s.index e ∧
      0 ≤ padBottom T (if s.delayed.isEmpty then none else some s.delayed) s.index e := by
    intro e
    have hm : MarginsOk (heldAt T (if s.delayed.isEmpty then none else some s.delayed) s.index e.row e.col).style := by
      rcases heldAt_style (runs_between hT rects (between_new T x0 y0 w0 h0) hs).delayed s.index e.row e.col with h1 | ⟨i, j, cell, h1, h2⟩
      · rw [h1]; exact hmargin
      · rw [h2]; exact hmargins i j cell h1
    obtain ⟨m1, m2, m3, m4⟩ := hm
    have hb := fun i j v => div_nonneg (hborder i j v) (show (0 : Rat) ≤ 2 by norm_num)
    exact ⟨add_nonneg (hb _ _ _) m1, add_nonneg (hb _ _ _) m2, add_nonneg (hb _ _ _) m3, add_nonneg (hb _ _ _) m4⟩
  have hX : Monotone (colX T.widths x w) := by
    refine monotone_nat_of_le_succ fun n => ?_
    rw [← colX_next]
    have : 0 ≤ T.widths.getD n 0 := by
      rw [List.getD_eq_getElem?_getD]
      cases hv : T.widths[n]? with
      | none => simp
      | some v => simpa using hpos v (List.mem_of_getElem? hv)
    have := mul_nonneg this hw
    linarith
  have hin := hd.inner hk hq hp hseen
  have hqc : q.1 ∈ cells := hd.order.subset (List.mem_map_of_mem hq)
  refine ⟨hin, ?_, fun q' hq' hne p' hp' hseen' => ?_⟩
  · obtain ⟨i1, i2⟩ := hd.inside q.1 hqc
    obtain ⟨p1, p2, p3, p4⟩ := hpad q.1
    obtain ⟨a1, a2, a3, a4⟩ := hin
    simp only [Tile.inner] at a1 a2 a3 a4
    refine ⟨?_, ?_, ?_, ?_⟩
    · have := hX (Nat.zero_le q.1.col)
      rw [show colX T.widths x w 0 = x by simp [colX]] at this
      show x ≤ _
      linarith
    · have := hX (show q.1.col + q.1.cols + 1 ≤ T.cols from i2)
      rw [← hT.right] at this
      show _ ≤ x + w
      linarith
    · have := hd.tops (Nat.zero_le q.1.row) (by omega)
      rw [hd.top] at this
      show _ ≤ y
      linarith
    · show y - h ≤ _
      split at a4
      · have := le_max_left (y - h) (topY rows (q.1.row + q.1.rows + 1))
        linarith
      · linarith
  · have hin' := hd.inner hk hq' hp' hseen'
    have hqc' : q'.1 ∈ cells := hd.order.subset (List.mem_map_of_mem hq')
    refine hd.apart hX (fun e _ => hpad e) hqc hqc' (fun heq => hne ?_) hin hin'
    have hnd : (outs.map Prod.fst).Nodup := hd.order.nodup hd.once
    exact pair_of_fst_nodup hnd hq' hq heq.symm

/-! ### a table -/

/-- blocks of some height, which are shown if they fit -/
def blockExec (c : Rat) (x y w h : Rat) : Except PyErr (CellOut Rat Area Nat Nat) :=
  if c ≤ h then .ok ⟨[⟨x, x + w, y, y - c⟩], [], [], c, true, c⟩ else .ok ⟨[], [], [], 0, false, c⟩

theorem block_keeps : KeepsArea id blockExec := by
  intro c x y w h o ho
  unfold blockExec at ho
  split at ho
  · rename_i hc
    cases ho
    exact ⟨fun _ => hc, fun p hp => by rw [List.mem_singleton.1 hp]; exact ⟨le_refl _, le_refl _, le_refl _, le_refl _⟩⟩
  · cases ho
    exact ⟨fun h => absurd h (lt_irrefl _), fun p hp => by cases hp⟩

def blockCell (rows cols : Nat) (c : Rat) : Option (Cell Rat Nat) := some ⟨some c, cols, rows, ⟨2, 1, 3, 1, none⟩⟩

/-- borders of width 2 -/
def blockTable (content : List (List (Option (Cell Rat Nat)))) : TConf Rat Area Nat Nat :=
  ⟨content, 3, [1 / 3, 1 / 3, 1 / 3], fun _ _ _ => ⟨2, 0⟩, fun _ _ => none, ⟨2, 1, 3, 1, none⟩, 0, blockExec⟩

def blockDrawn (content : List (List (Option (Cell Rat Nat)))) (h : Rat) : Option (List (Rat × Rat × Rat × Rat) × List (Option Rat × Rat)) :=
  match (TS.new 0 h 90 h : TS Rat Area Nat Nat).run (blockTable content) 0 h 90 h with
  | .ok s => some (s.parts.map fun a => (a.left, a.right, a.top, a.bottom), s.lines.map fun l => (l.y2, l.y1))
  | .error _ => none

/-- a cell of two rows and two columns beside others -/
def blockSquare : List (List (Option (Cell Rat Nat))) := [[blockCell 1 1 50, none, blockCell 0 0 10], [none, none, blockCell 0 0 20]]
/-- the blocks are 1 (half of a border) and the margins away from the lines: the big one is in the two rows of its cell, which the second row is made higher for -/
example : blockDrawn blockSquare 100 = some ([(2, 58, 97, 47), (62, 88, 97, 87), (62, 88, 80, 60)],
    [(some 100, 100), (some 83, 83), (some 43, 43), (some 42, 101), (some 42, 101), (some 42, 101)]) := by decide +kernel

/-- the conditions of C83 hold of it -/
example : RectsOk blockSquare 3 ∧ FlagOk blockSquare ∧ tableWidths 3 none = .ok [1 / 3, 1 / 3, 1 / 3] ∧
    (∀ i j cell, cellAt blockSquare i j = some cell → MarginsOk cell.style) := by
  have hc : ∀ i j cell, cellAt blockSquare i j = some cell → (i = 0 ∧ j = 0 ∧ some cell = blockCell 1 1 50) ∨ (i = 0 ∧ j = 2 ∧ some cell = blockCell 0 0 10) ∨
      (i = 1 ∧ j = 2 ∧ some cell = blockCell 0 0 20) := by
    intro i j cell h
    match i, j with
    | 0, 0 => exact .inl ⟨rfl, rfl, h.symm⟩
    | 0, 1 => cases h
    | 0, 2 => exact .inr (.inl ⟨rfl, rfl, h.symm⟩)
    | 0, _ + 3 => cases h
    | 1, 0 => cases h
    | 1, 1 => cases h
    | 1, 2 => exact .inr (.inr ⟨rfl, rfl, h.symm⟩)
    | 1, _ + 3 => cases h
    | _ + 2, _ => cases h
  refine ⟨⟨?_, ?_⟩, ?_, by decide +kernel, ?_⟩
  · intro i j c i' j' c' p q h h'
    rcases hc _ _ _ h with ⟨rfl, rfl, e⟩ | ⟨rfl, rfl, e⟩ | ⟨rfl, rfl, e⟩ <;> cases e <;>
      rcases hc _ _ _ h' with ⟨rfl, rfl, e'⟩ | ⟨rfl, rfl, e'⟩ | ⟨rfl, rfl, e'⟩ <;> cases e' <;> simp <;> omega
  · intro i j c h
    rcases hc _ _ _ h with ⟨rfl, rfl, e⟩ | ⟨rfl, rfl, e⟩ | ⟨rfl, rfl, e⟩ <;> cases e <;> decide
  · refine .inl fun i j c h => ?_
    rcases hc _ _ _ h with ⟨rfl, rfl, e⟩ | ⟨rfl, rfl, e⟩ | ⟨rfl, rfl, e⟩ <;> cases e <;> decide
  · intro i j c h
    rcases hc _ _ _ h with ⟨rfl, rfl, e⟩ | ⟨rfl, rfl, e⟩ | ⟨rfl, rfl, e⟩ <;> cases e <;> exact ⟨by norm_num, by norm_num, by norm_num, by norm_num⟩

/-! ### cells that span rows of the next page -/

/-- a cell of three rows, whose second row is broken -/
def blockBroken : List (List (Option (Cell Rat Nat))) :=
  [[blockCell 2 0 60, blockCell 0 0 10, none], [none, blockCell 0 0 90, none], [none, blockCell 0 0 10, none]]

/-- **C83, where the code goes wrong.** The contents of a cell need not end above the lower end of the table: if a table is broken in a cell of several rows, before its
last row, the rows are not made high enough for what the cell holds. Here it ends at 37, and the table, with its lines, at 78. -/
theorem C83_broken_span_false :
    ∃ s, (TS.new 0 100 90 100 : TS Rat Area Nat Nat).run (blockTable blockBroken) 0 100 90 100 = .ok s ∧
      (∃ p ∈ s.parts, p.bottom = 37 ∧ p.top = 97) ∧ s.y - s.currentHeight = 79 ∧ ∀ l ∈ s.lines, ∃ y2, l.y2 = some y2 ∧ 78 ≤ y2 := by
  have h : (match (TS.new 0 100 90 100 : TS Rat Area Nat Nat).run (blockTable blockBroken) 0 100 90 100 with
    | .ok s => (s.parts.any fun p => p.bottom == 37 && p.top == 97) && s.y - s.currentHeight == 79 && s.lines.all fun l => match l.y2 with
      | some y2 => decide (78 ≤ y2)
      | none => false
    | .error _ => false) = true := by decide +kernel
  split at h
  · rename_i s hs
    simp only [Bool.and_eq_true, List.any_eq_true, List.all_eq_true, beq_iff_eq] at h
    obtain ⟨⟨⟨p, hp, h1, h2⟩, h3⟩, h4⟩ := h
    refine ⟨s, hs, ⟨p, hp, h1, h2⟩, h3, fun l hl => ?_⟩
    have := h4 l hl
    split at this
    · rename_i y2 hy
      exact ⟨y2, hy, by simpa using this⟩
    · cases this
  · cases h

/-! ### text and images -/

/-- the rectangle of a paragraph or an image -/
def DocPart.area : DocPart → Area
  | .par x y w h .. => ⟨x, x + w, y, y - h⟩
  | .image _ x y w h => ⟨x, x + w, y + h, y⟩

/-- paragraphs and images keep to the rectangle they get -/
theorem doc_keeps (T : TextEnv) : KeepsArea DocPart.area (docExec T) := by
  have hdone : ∀ (c : DocLeaf) (x y w h : Rat), (0 < (docDone c).height → (docDone c).height ≤ h) ∧
      ∀ p ∈ (docDone c).parts, (DocPart.area p).Within ⟨x, x + w, y, y - (docDone c).height⟩ :=
    fun c x y w h => ⟨fun h0 => absurd h0 (lt_irrefl _), fun p hp => by cases hp⟩
  intro c x y w h o ho
  cases c with
  | par a rects correct =>
    simp only [docExec, docParExec] at ho
    split at ho
    · cases ho
      exact hdone _ _ _ _ _
    · rename_i hf
      split at ho
      · cases ho
      · cases ho
        have hreach : TReach T.metrics a.cfg (textRuns T.metrics a.cfg rects TPos.init).1 := ⟨rects, rfl, by simpa using hf⟩
        obtain ⟨E, hp⟩ := hreach.post
        have hle := (textRun_height T.metrics a.cfg w h _ hp.lastV).2
        refine ⟨fun h0 => ?_, fun p hp => ?_⟩
        · simp only at h0 ⊢
          rcases max_cases 0 h with ⟨e, -⟩ | ⟨e, -⟩ <;> rw [e] at hle <;> linarith
        · rw [List.mem_singleton.1 hp]
          exact ⟨le_refl _, le_refl _, le_refl _, le_refl _⟩
  | image im shown =>
    cases shown with
    | true =>
      cases ho
      exact hdone _ _ _ _ _
    | false =>
      simp only [docExec, docImageExec] at ho
      split at ho
      · cases ho
      · split at ho
        · rename_i hlt
          cases ho
          refine ⟨fun _ => le_of_lt hlt, fun p hp => ?_⟩
          rw [List.mem_singleton.1 hp]
          exact ⟨le_refl _, le_refl _, by simp [DocPart.area], by simp [DocPart.area]⟩
        · cases ho
          exact ⟨fun h0 => absurd h0 (lt_irrefl _), fun p hp => by cases hp⟩

/-- **C83, for tables of text and images.** On every page that such a table is put on, nothing is drawn, or each paragraph and image is inside of one cell, between
its borders and margins, and in the rectangle given, and those of different cells do not overlap. -/
theorem C83_text_and_images_partial (E : TextEnv) (T : DocTable) (hexec : T.exec = docExec E) (hrects : RectsOk T.content T.cols) (hflag : FlagOk T.content)
    (hborder : ∀ i j v, 0 ≤ (T.border i j v).width)
    (given : Option (List Rat)) (hcols : 0 < T.cols) (hwidths : tableWidths T.cols given = .ok T.widths) (hpos : ∀ v ∈ T.widths, 0 ≤ v)
    (hmargin : MarginsOk T.style) (hmargins : ∀ i j cell, cellAt T.content i j = some cell → MarginsOk cell.style)
    (x0 y0 w0 h0 : Rat) (rects : List (Rat × Rat × Rat × Rat)) (ps : List DocPart) (s s' : TS DocLeaf DocPart LineLook (PDFColor Rat))
    (hs : (TS.new x0 y0 w0 h0).runs T rects = .ok (ps, s)) (x y w h : Rat) (hw : 0 ≤ w) (hr : s.run T x y w h = .ok s') :
    s'.parts = [] ∨
    ∃ rows cells outs, Drawing T (colX T.widths x w) y (if s.delayed.isEmpty then none else some s.delayed) s.index s'.index (y - s'.currentHeight) (y - h) rows cells outs s'.parts s'.lines s'.fills ∧
      ∀ q ∈ outs, ∀ p ∈ q.2.parts, p.area.Seen →
        p.area.Within (q.1.inner T (if s.delayed.isEmpty then none else some s.delayed) s.index (colX T.widths x w) (topY rows) (y - h) (rows.length - 1)) ∧
        p.area.Within ⟨x, x + w, y, y - h⟩ ∧
        ∀ q' ∈ outs, q' ≠ q → ∀ p' ∈ q'.2.parts, p'.area.Seen → p.area.Apart p'.area :=
  C83_inside_partial T hrects hflag hborder given hcols hwidths hpos hmargin hmargins _ (hexec ▸ doc_keeps E) x0 y0 w0 h0 rects ps s s' hs x y w h hw hr

end Verif
