import Verif.Lemmas.TableGridRun
/-! All rows of a run of a table, and its end (table.py:451-523). -/
namespace Verif
open Spec

variable {σ P B C : Type} [DecidableEq B] {T : TConf σ P B C}

/-- the row below the last one -/
def closingRow (T : TConf σ P B C) (s : TS σ P B C) : GridRow B :=
  ⟨s.y - s.currentHeight, (List.range T.cols).map fun c : Nat => T.border s.index c false, []⟩

theorem closeCols_pen (T : TConf σ P B C) {X : Nat → Rat} {g : GridRow B} (n c : Nat) (s : TS σ P B C) (hX : X = colX T.widths s.x s.width)
    (hy : g.y = s.yAbs) (hl : g.lefts = []) (ht : ∀ i, c ≤ i → i < c + n → g.tops[i]? = some (T.border s.index i false)) :
    ∃ p xa, (List.range' c n).foldl (fun s col => s.closeCol T col) s = { s with topLines := p.topLines, topInt := p.topInt, vert := p.vert, xAbs := xa } ∧
      p = Pen.row T.widths s.width X g n c s.pen := by
  induction n generalizing c s with
  | zero => exact ⟨s.pen, s.xAbs, rfl, rfl⟩
  | succ n ih =>
    rw [List.range'_succ, List.foldl_cons]
    obtain ⟨p, xa, h1, h2⟩ := ih (c + 1) (s.closeCol T c) hX hy (fun i h1 h2 => ht i (by omega) (by omega))
    refine ⟨p, xa, by rw [h1]; rfl, ?_⟩
    rw [h2, Pen.row, hl, ht c (le_refl _) (by omega), hX, hy]
    rfl

theorem ColTrack.closed {X : Nat → Rat} {rows : List (GridRow B)} {g : GridRow B} (hg : g.lefts = []) {c : Nat} {v : VLine B}
    (h : ColTrack X (rows ++ [g]) c v) : v.list = colLines X (rows ++ [g]) c := by
  unfold ColTrack at h
  have : ((rows ++ [g]).map fun g => (g.lefts[c]?).bind seen).reverse = none :: (rows.map fun g => (g.lefts[c]?).bind seen).reverse := by
    rw [List.map_append, List.reverse_append]
    simp [hg]
  have h' := h
  rw [this] at h'
  unfold Track at h'
  rw [h'.2, ← this]
  simp [colLines, stretches, List.map_reverse]

theorem flatMap_eq_range {α β : Type} (l : List α) (d : α) (f : α → List β) (n : Nat) (hn : l.length = n) :
    l.flatMap f = (List.range n).flatMap fun i => f (l.getD i d) := by
  subst hn
  have : (List.range l.length).map (fun i => l.getD i d) = l := by
    refine List.ext_getElem (by simp) fun i h1 h2 => ?_
    simp [h2]
  conv_lhs => rw [← this]
  rw [List.flatMap_map]

/-- what a run drew, seen from the outside -/
structure RunGrid (T : TConf σ P B C) (x y width hh : Rat) (late : Option (List (Nat × Delayed σ C))) (base : Nat) (rows : List (GridRow B)) (cells : List (Tile C))
    (outs : List (Tile C × CellOut σ P B C)) (s : TS σ P B C) : Prop where
  draw : GDone T x y width hh late base rows cells outs s
  index : (s.index = base + rows.length ∧ T.content.length ≤ s.index) ∨ s.index + 1 = base + rows.length
  delayed : DelOk T s

theorem close_draw (hT : TableOk T) {x y width hh : Rat} {late : Option (List (Nat × Delayed σ C))} {base : Nat} {rows : List (GridRow B)} {cells : List (Tile C)}
    {outs : List (Tile C × CellOut σ P B C)} {s : TS σ P B C} (h : GBase T x y width hh late base rows cells outs s) :
    (s.close T).lines.Perm (outs.flatMap (·.2.lines) ++ gridLines (colX T.widths x width) T.cols (rows ++ [closingRow T s])) ∧
    (s.close T).fills = s.fills ∧ (s.close T).parts = s.parts ∧ (s.close T).index = s.index ∧ (s.close T).delayed = s.delayed ∧
    (s.close T).firstRow = s.firstRow ∧ (s.close T).currentHeight = s.currentHeight := by
  let g := closingRow T s
  let s0 : TS σ P B C := { s with topLines := [], topInt := true, yAbs := s.y - s.currentHeight }
  obtain ⟨p, xa, h1, h2⟩ := closeCols_pen T (X := colX T.widths s.x s.width) (g := g) T.cols 0 s0 rfl rfl rfl (fun i _ hi => by
    have : i < T.cols := by omega
    simp [g, closingRow, this, s0])
  rw [← List.range_eq_range'] at h1
  have hgl : ∀ c : Nat, g.lefts[c]? = none := fun c => by show ([] : List (Bd B))[c]? = none; simp
  have hgt : g.tops.length = T.cols := by simp [g, closingRow]
  have hgt' : ∀ c : Nat, 0 ≤ bdWidth (g.tops[c]?) := by
    intro c
    by_cases hc : c < T.cols
    · have : g.tops[c]? = some (T.border s.index c false) := by
        simp [g, closingRow, hc]
      rw [this]; exact hT.border _ _ _
    · rw [List.getElem?_eq_none (by omega)]; exact le_refl _
  have hpos : ∀ g' ∈ rows ++ [g], ∀ c : Nat, 0 ≤ bdWidth (g'.lefts[c]?) := by
    intro g' hg c
    rcases List.mem_append.1 hg with hg | hg
    · obtain ⟨r, hr⟩ := List.getElem?_of_mem hg
      obtain ⟨l1, l2⟩ := h.lens g' hg
      by_cases hc : c < T.cols
      · have e1 : g'.lefts[c]? = some g'.lefts[c] := List.getElem?_eq_getElem (by omega)
        have e2 : g'.tops[c]? = some g'.tops[c] := List.getElem?_eq_getElem (by omega)
        rw [e1]
        exact ((h.grid r c g' _ _ hr hc e1 e2).off_or hT.border).1
      · by_cases hc' : c = T.cols
        · rw [hc', h.edge r g' hr]; exact hT.border _ _ _
        · rw [List.getElem?_eq_none (by omega)]; exact le_refl _
    · simp only [List.mem_singleton] at hg
      subst hg
      rw [hgl]; exact le_refl _
  obtain ⟨r1, r2, r3⟩ := Pen.row_all (X := colX T.widths x width) (n := T.cols) (rows := rows) (g := g) T.widths width
    (fun c _ => colX_next _ _ _ _) hgt hpos hgt' s.vert h.vertLen h.vert
  have hpen : (s.close T).pen = Pen.row T.widths width (colX T.widths x width) g (T.cols + 1) 0 ⟨[], true, s.vert⟩ := by
    rw [Pen.row_succ, Nat.zero_add, hgl, List.getElem?_eq_none (le_of_eq hgt)]
    have h2' : p = Pen.row T.widths width (colX T.widths x width) g T.cols 0 ⟨[], true, s.vert⟩ := by
      rw [h2, ← h.sx, ← h.sw]; rfl
    rw [← h2', ← hT.right, ← h.sx, ← h.sw]
    unfold TS.close
    simp only [h1, s0]
    rfl
  rw [← hpen] at r1 r2 r3
  have hlines : (s.close T).lines = s.lines ++ (s.close T).topLines ++ (s.close T).vert.flatMap (·.list) := by
    have : (s.close T).lines = ((List.range T.cols).foldl (fun s col => s.closeCol T col) s0).lines ++ (s.close T).topLines ++
      (s.close T).vert.flatMap (·.list) := rfl
    rw [this, h1]
  have hrest : (s.close T).fills = s.fills ∧ (s.close T).parts = s.parts ∧ (s.close T).index = s.index ∧ (s.close T).delayed = s.delayed ∧
    (s.close T).firstRow = s.firstRow ∧ (s.close T).currentHeight = s.currentHeight := by
    unfold TS.close
    simp only [TS.processBorders]
    have e : ∀ s0 : TS σ P B C, s0 = { s with topLines := [], topInt := true, yAbs := s.y - s.currentHeight } →
      (List.range T.cols).foldl (fun s col => s.closeCol T col) s0 = { s0 with topLines := p.topLines, topInt := p.topInt, vert := p.vert, xAbs := xa } := by
      rintro s0 rfl; exact h1
    rw [e _ rfl]
    exact ⟨rfl, rfl, rfl, rfl, rfl, rfl⟩
  refine ⟨?_, hrest⟩
  have hv : (s.close T).vert.flatMap (·.list) = (List.range (T.cols + 1)).flatMap (colLines (colX T.widths x width) (rows ++ [g])) := by
    rw [flatMap_eq_range (s.close T).vert ⟨[], true⟩ _ (T.cols + 1) r2]
    refine List.flatMap_congr fun c hc => ?_
    exact (r3 c (by have := List.mem_range.1 hc; omega)).closed rfl
  have ht : (s.close T).topLines = rowLines (colX T.widths x width) (rows ++ [g]) rows.length := r1
  rw [hlines, hv, ht]
  unfold gridLines
  rw [rowLines_snoc, List.append_assoc, ← List.append_assoc, ← List.append_assoc, ← List.append_assoc]
  exact List.Perm.append_right _ (List.Perm.append_right _ h.lines)

omit [DecidableEq B] in
theorem elOk_cell {base r c : Nat} {el : Option (Cell σ C)} (h : (T.content[base + r]?.bind (·[c]?)) = some el) : ElOk T base r c (.cell el) := by
  cases el with
  | none => exact ⟨le_refl _, .inl ⟨rfl, rfl⟩, .inr rfl, .inl rfl⟩
  | some cell =>
    have : cellAt T.content (base + r) c = some cell := by
      unfold cellAt
      rw [h]
      rfl
    exact ⟨le_refl _, .inr ⟨cell, this, rfl, rfl⟩, .inr rfl, .inr ⟨_, _, cell, this, rfl⟩⟩

omit [DecidableEq B] in
theorem elOk_late {base c : Nat} {s : TS σ P B C} (hb : s.index = base) (h : DelOk T s) : ElOk T base 0 c (.late (dget c s.delayed)) := by
  cases hd : dget c s.delayed with
  | none => exact ⟨le_refl _, .inl ⟨rfl, rfl⟩, .inl rfl, .inl rfl⟩
  | some d =>
    obtain ⟨-, h2, h3, h4⟩ := h c d hd
    have e : (T.element (base + 0) (.late (some d))).row = d.row ∧ (T.element (base + 0) (.late (some d))).rows = d.rows ∧
        (T.element (base + 0) (.late (some d))).cols = d.cols := by
      simp only [TConf.element]
      cases d.content <;> exact ⟨rfl, rfl, rfl⟩
    unfold ElOk
    rw [e.1, e.2.1, e.2.2]
    refine ⟨by omega, h3, .inl rfl, ?_⟩
    simp only [TConf.element]
    cases d.content with
    | none => exact .inl rfl
    | some c => exact h4

/-- a row that is cancelled -/
theorem GridInv.cancel (hT : TableOk T) {x y width hh : Rat} {late : Option (List (Nat × Delayed σ C))} {base : Nat} {rows : List (GridRow B)} {cells : List (Tile C)}
    {outs : List (Tile C × CellOut σ P B C)} {s s' : TS σ P B C} (hi : GridInv T x y width hh late base rows cells outs s) {els : List (RowEl σ C)} {dl : Bool}
    (hdl : dl = true → rows.length = 0) (hel : ∀ c el, els[c]? = some el → ElOk T base rows.length c el ∧ elAt T late base rows.length c = some el)
    (h : s.addRow T els dl = .ok (.cancel, s')) : DelOk T s' ∧ s.firstRow = true ∧ s'.firstRow = false := by
  obtain ⟨hlen, s1, h1, hcase⟩ := addRow_split h
  have hb := hi.draw
  have hin : ∀ p ∈ outs, p.1 ∈ cells := fun p hp => hb.order.subset (List.mem_map_of_mem hp)
  have hht0 : HeightInv T late base (yOf rows (s.y - s.currentHeight)) rows.length 0 outs s.newRow :=
    ⟨hi.heights.pend, fun p _ _ hlt _ => absurd hlt (Nat.not_lt_zero _)⟩
  obtain ⟨new, lefts, tops, outs', q⟩ := cells_draw hT.rects hT.flag (late := late) (X := colX T.widths x width) (Y := yOf rows (s.y - s.currentHeight)) rfl
    (colX_width T.widths x width) (base := base) (r := rows.length) (dl := dl) els (col := 0) (cells := cells) (s := s.newRow)
    (hi.spans.same rfl rfl rfl rfl) hin hht0 hi.fillsMem (by simp [TS.newRow, yOf]) hb.sx hb.sw hdl (by omega)
    (fun k el hk => by rw [Nat.zero_add]; exact (hel k el hk).1) (fun k el hk => by rw [Nat.zero_add]; exact (hel k el hk).2) h1
  rcases hcase with ⟨-, hf, rfl⟩ | ⟨ha, -⟩
  · exact ⟨q.delayed hi.delayed, (show s.newRow.firstRow = true from q.frame.firstRow ▸ hf), rfl⟩
  · split at ha <;> cases ha

theorem addRows_draw (hT : TableOk T) {x y width hh : Rat} {late : Option (List (Nat × Delayed σ C))} {base : Nat}
    (l : List (List (Option (Cell σ C)))) {rows : List (GridRow B)} {cells : List (Tile C)}
    {outs : List (Tile C × CellOut σ P B C)} {s s' : TS σ P B C} (hi : GridInv T x y width hh late base rows cells outs s) (hlate : late = none ∨ rows ≠ [])
    (hl : T.content.drop s.index = l) {cn : Bool} (h : s.addRows T l = .ok (cn, s')) :
    (cn = true → s.firstRow = true ∧ s'.firstRow = false ∧ DelOk T s') ∧
    (cn = false → (∃ rows' cells' outs', RunGrid T x y width hh late base (rows ++ rows') (cells ++ cells') (outs ++ outs') s') ∧
      (s'.firstRow = true → s.firstRow = true ∧ s'.delayed = s.delayed)) := by
  induction l generalizing rows cells outs s with
  | nil =>
    simp only [TS.addRows, Except.ok.injEq, Prod.mk.injEq] at h
    obtain ⟨rfl, rfl⟩ := h
    refine ⟨by simp, fun _ => ⟨⟨[], [], [], ⟨?_, ?_⟩, .inl ⟨?_, List.drop_eq_nil_iff.1 hl⟩, hi.delayed⟩, fun h => ⟨h, rfl⟩⟩⟩
    · simpa using hi.draw
    · simp only [List.append_nil]
      have hall : cells.filter (fun e => decide (e.row + e.rows < rows.length)) = cells := by
        rw [List.filter_eq_self]
        intro e he
        rw [decide_eq_true_eq]
        have hidx : s.index = base + rows.length := hi.spans.index
        have hend := List.drop_eq_nil_iff.1 hl
        by_cases hr : 0 < e.rows
        · obtain ⟨i, c, c1, c2, c3, c4⟩ := hi.spans.real e he hr
          have := (hT.rects.inside _ _ _ c1).1
          omega
        · have := (hi.draw.early e he).1
          omega
      have := hi.fills
      rw [hall] at this
      exact this
    · rw [List.append_nil]; exact hi.spans.index
  | cons row l ih =>
    have hidx : s.index = base + rows.length := hi.spans.index
    have hrow : T.content[base + rows.length]? = some row := by
      have := congrArg (·[0]?) hl
      rw [← hidx]
      simpa using this
    have hl' : T.content.drop (s.index + 1) = l := by
      rw [← List.drop_drop, hl]; rfl
    simp only [TS.addRows] at h
    cases h1 : s.addRow T (row.map .cell) false with
    | error e => rw [h1] at h; cases h
    | ok q =>
      obtain ⟨act, s1⟩ := q
      rw [h1] at h
      have hel : ∀ c el, (row.map RowEl.cell)[c]? = some el → ElOk T base rows.length c el ∧ elAt T late base rows.length c = some el := by
        intro c el hc
        rw [List.getElem?_map] at hc
        obtain ⟨o, ho, rfl⟩ := Option.map_eq_some_iff.1 hc
        have hat : (T.content[base + rows.length]?.bind (·[c]?)) = some o := by rw [hrow]; exact ho
        refine ⟨elOk_cell hat, ?_⟩
        unfold elAt
        rcases hlate with rfl | hne
        · simp only [hat, Option.map_some]
        · cases late with
          | none => simp only [hat, Option.map_some]
          | some d =>
            cases hr : rows.length with
            | zero => exact absurd (List.eq_nil_of_length_eq_zero hr) hne
            | succ n => rw [hr] at hat; simp only [hat, Option.map_some]
      cases act with
      | cancel =>
        simp only [Except.ok.injEq, Prod.mk.injEq] at h
        obtain ⟨rfl, rfl⟩ := h
        obtain ⟨a1, a2, a3⟩ := hi.cancel hT (by simp) hel h1
        exact ⟨fun _ => ⟨a2, a3, a1⟩, by simp⟩
      | «continue» =>
        simp only at h
        obtain ⟨g, new, outs', b1, b2, b3, b4, b5, -⟩ := hi.row hT (by simp) hel h1 (by simp)
        have hnext := b5 rfl
        have hl2 : T.content.drop ({ s1 with index := s1.index + 1 } : TS σ P B C).index = l := by
          show T.content.drop (s1.index + 1) = l
          rw [b3]; exact hl'
        obtain ⟨c1, c2⟩ := ih hnext (.inr (by simp)) hl2 h
        refine ⟨fun hc => ?_, fun hc => ?_⟩
        · have := (c1 hc).1
          rw [show s1.firstRow = false from b4] at this
          cases this
        · obtain ⟨⟨rows', cells', outs'', d⟩, d2⟩ := c2 hc
          refine ⟨⟨g :: rows', new ++ cells', outs' ++ outs'', by simpa [List.append_assoc] using d⟩, fun hf => ?_⟩
          have := (d2 hf).1
          rw [show s1.firstRow = false from b4] at this
          cases this
      | interrupt =>
        simp only [Except.ok.injEq, Prod.mk.injEq] at h
        obtain ⟨rfl, rfl⟩ := h
        obtain ⟨g, new, outs', b1, b2, b3, b4, -, b6⟩ := hi.row hT (by simp) hel h1 (by simp)
        refine ⟨by simp, fun _ => ⟨⟨[g], new, outs', b6 rfl, .inr ?_, b2⟩, fun hf => by rw [b4] at hf; cases hf⟩⟩
        rw [b3, hidx]
        simp
        omega

/-- what holds of a table between runs -/
structure Between (T : TConf σ P B C) (s : TS σ P B C) : Prop where
  delayed : DelOk T s
  first : s.firstRow = true → s.delayed = []

omit [DecidableEq B] in
theorem between_new (T : TConf σ P B C) (x y w h : Rat) : Between T (TS.new x y w h) :=
  ⟨fun c d hd => by simp [TS.new, dget] at hd, fun _ => rfl⟩

theorem clear_inv (T : TConf σ P B C) {s : TS σ P B C} (hs : Between T s) (late : Option (List (Nat × Delayed σ C))) (x y w h : Rat) :
    GridInv T x y w h late s.index [] [] [] (s.clear T x y w h) := by
  refine ⟨⟨rfl, rfl, rfl, by simp [TS.clear], ?_, rfl, by simp, by simp, by simp, rfl, by simp [TS.clear], by simp, by simp, by simp, ?_, by simp, by simp, by simp, by simp, by simp, by simp⟩,
    ⟨rfl, by simp, by simp, by simp, by simp, ?_, by simp, ?_, by simp, by simp, ?_, .inl fun _ => rfl⟩, ?_, ?_, hs.delayed, ⟨by simp, by simp⟩⟩
  · intro c hc
    have : (s.clear T x y w h).vert.getD c ⟨[], true⟩ = ⟨[], true⟩ := by
      show (List.replicate (T.cols + 1) _).getD c _ = _
      rw [List.getD_eq_getElem?_getD, List.getElem?_replicate]
      split <;> rfl
    rw [this]
    simp [ColTrack, Track, stretchesR]
  · simp [yOf, TS.clear]
  · intro c k m hk; cases hk
  · intro hp; exact absurd hp (by simp)
  · intro p q _ hp; simp at hp
  · simp [FillInv, TS.clear]
  · simp [TS.clear]

/-- everything a run draws -/
theorem run_draw (hT : TableOk T) {s s' : TS σ P B C} (hs : Between T s) {x y w hh : Rat} (h : s.run T x y w hh = .ok s') :
    Between T s' ∧ ((s.firstRow = true ∧ s'.parts = [] ∧ s'.lines = [] ∧ s'.fills = []) ∨
      ∃ rows cells outs s2, RunGrid T x y w hh (if s.delayed.isEmpty then none else some s.delayed) s.index rows cells outs s2 ∧
        (s2.close T).index = s2.index ∧ s' = s2.close T) := by
  unfold TS.run at h
  have hclose : ∀ (s2 : TS σ P B C) late rows cells outs, RunGrid T x y w hh late s.index rows cells outs s2 → (s2.firstRow = true → s2.delayed = []) →
      Between T (s2.close T) ∧ (s2.close T).index = s2.index := by
    intro s2 late rows cells outs hg hf
    obtain ⟨-, a1, a2, a3, a4, a5, a6⟩ := close_draw hT hg.draw.draw
    refine ⟨⟨fun c d hd => ?_, fun h => ?_⟩, a3⟩
    · rw [a4] at hd; rw [a3]; exact hg.delayed c d hd
    · rw [a4]; rw [a5] at h; exact hf h
  unfold TS.addLate at h
  by_cases he : s.delayed.isEmpty = true
  · have he' : (s.clear T x y w hh).delayed.isEmpty = true := he
    rw [if_pos he'] at h
    rw [if_pos he]
    simp only at h
    cases h2 : (s.clear T x y w hh).addRows T (T.content.drop (s.clear T x y w hh).index) with
    | error e => rw [h2] at h; cases h
    | ok q =>
      obtain ⟨cn, s2⟩ := q
      rw [h2] at h
      obtain ⟨c1, c2⟩ := addRows_draw hT _ (clear_inv T hs none x y w hh) (.inl rfl) rfl h2
      cases cn with
      | true =>
        simp only [Except.ok.injEq] at h
        subst h
        obtain ⟨d1, d2, d3⟩ := c1 rfl
        refine ⟨⟨d3, fun hf => ?_⟩, .inl ⟨d1, rfl, rfl, rfl⟩⟩
        have hf' : s2.firstRow = true := hf
        rw [d2] at hf'; cases hf'
      | false =>
        simp only [Except.ok.injEq] at h
        subst h
        obtain ⟨⟨rows, cells, outs, hg⟩, d2⟩ := c2 rfl
        simp only [List.nil_append] at hg
        have := hclose s2 none rows cells outs hg (fun hf => by rw [(d2 hf).2]; exact List.isEmpty_iff.1 he)
        exact ⟨this.1, .inr ⟨rows, cells, outs, s2, hg, this.2, rfl⟩⟩
  · have he' : ¬ (s.clear T x y w hh).delayed.isEmpty = true := he
    rw [if_neg he'] at h
    rw [if_neg he]
    have hfr : s.firstRow = false := by
      cases hf : s.firstRow with
      | false => rfl
      | true => exact absurd (List.isEmpty_iff.2 (hs.first hf)) he
    have hi := clear_inv T hs (some s.delayed) x y w hh
    have hel : ∀ c el, ((List.range T.cols).map fun i => RowEl.late (dget i (s.clear T x y w hh).delayed))[c]? = some el →
        ElOk T s.index ([] : List (GridRow B)).length c el ∧ elAt T (some s.delayed) s.index ([] : List (GridRow B)).length c = some el := by
      intro c el hc
      rw [List.getElem?_map] at hc
      obtain ⟨o, ho, rfl⟩ := Option.map_eq_some_iff.1 hc
      have : o = c := by
        obtain ⟨h1, h2⟩ := List.getElem?_eq_some_iff.1 ho
        rw [List.getElem_range] at h2
        exact h2.symm
      subst this
      exact ⟨elOk_late rfl hs.delayed, rfl⟩
    cases h1 : (s.clear T x y w hh).addRow T ((List.range T.cols).map fun i => .late (dget i (s.clear T x y w hh).delayed)) true with
    | error e => rw [h1] at h; cases h
    | ok q =>
      obtain ⟨act, s1⟩ := q
      rw [h1] at h
      cases act with
      | cancel =>
        have := (hi.cancel hT (by simp) hel h1).2.1
        rw [show (s.clear T x y w hh).firstRow = s.firstRow from rfl, hfr] at this
        cases this
      | interrupt =>
        simp only [Except.ok.injEq] at h
        subst h
        obtain ⟨g, new, outs', b1, b2, b3, b4, -, b6⟩ := hi.row hT (by simp) hel h1 (by simp)
        have hg : RunGrid T x y w hh (some s.delayed) s.index ([] ++ [g]) ([] ++ new) ([] ++ outs') s1 := ⟨b6 rfl, .inr (by rw [b3]; rfl), b2⟩
        have := hclose s1 _ _ _ _ hg (fun hf => by rw [b4] at hf; cases hf)
        exact ⟨this.1, .inr ⟨_, _, _, s1, hg, this.2, rfl⟩⟩
      | «continue» =>
        simp only at h
        obtain ⟨g, new, outs', b1, b2, b3, b4, b5, -⟩ := hi.row hT (by simp) hel h1 (by simp)
        cases h2 : ({ s1 with index := s1.index + 1 } : TS σ P B C).addRows T (T.content.drop (s1.index + 1)) with
        | error e => rw [h2] at h; cases h
        | ok q =>
          obtain ⟨cn, s2⟩ := q
          rw [h2] at h
          obtain ⟨c1, c2⟩ := addRows_draw hT _ (b5 rfl) (.inr (by simp)) rfl h2
          cases cn with
          | true =>
            have := (c1 rfl).1
            rw [show ({ s1 with index := s1.index + 1 } : TS σ P B C).firstRow = false from b4] at this
            cases this
          | false =>
            simp only [Except.ok.injEq] at h
            subst h
            obtain ⟨⟨rows, cells, outs, hg⟩, d2⟩ := c2 rfl
            have := hclose s2 _ _ _ _ hg (fun hf => by
              have := (d2 hf).1
              rw [show ({ s1 with index := s1.index + 1 } : TS σ P B C).firstRow = false from b4] at this
              cases this)
            exact ⟨this.1, .inr ⟨_, _, _, s2, hg, this.2, rfl⟩⟩

end Verif
