import Verif.Lemmas.BoxShapes
import Verif.Props.C87_InNest
/-! C92: the lines and fills of tables, in tables and boxes inside each other. -/
namespace Verif
open Spec

variable {Λ Q σ P B C : Type}

/-! ### a table -/

theorem stretchesR_entry {α : Type} [DecidableEq α] (l : List (Option α)) : ∀ s ∈ stretchesR l, ∀ k, s.1 ≤ k → k < s.2.1 → l.reverse[k]? = some (some s.2.2) := by
  induction l with
  | nil => simp [stretchesR]
  | cons a l ih =>
    have old : ∀ s ∈ stretchesR l, ∀ k, s.1 ≤ k → k < s.2.1 → (a :: l).reverse[k]? = some (some s.2.2) := by
      intro s hs k h1 h2
      have h3 := (stretchesR_bounds l s hs).2
      rw [List.reverse_cons, List.getElem?_append_left (by simpa using lt_of_lt_of_le h2 h3)]
      exact ih s hs k h1 h2
    cases a with
    | none => exact old
    | some a =>
      have new : (some a :: l).reverse[l.length]? = some (some a) := by
        rw [List.reverse_cons, List.getElem?_append_right (by simp)]
        simp
      intro s hs k h1 h2
      unfold stretchesR at hs
      cases hr : stretchesR l with
      | nil =>
        rw [hr] at hs
        simp only [List.mem_singleton] at hs
        subst hs
        simp only at h1 h2
        rw [show k = l.length by omega]
        exact new
      | cons p r =>
        obtain ⟨i, j, b⟩ := p
        rw [hr] at hs old
        simp only at hs
        split at hs
        · rename_i hc
          obtain ⟨rfl, rfl⟩ := hc
          rcases List.mem_cons.1 hs with rfl | hs
          · simp only at h1 h2
            by_cases hk : k = l.length
            · rw [hk]; exact new
            · exact old (i, l.length, b) (by simp) k h1 (by simp only; omega)
          · exact old s (by simp [hs]) k h1 h2
        · rcases List.mem_cons.1 hs with rfl | hs
          · simp only at h1 h2
            rw [show k = l.length by omega]
            exact new
          · exact old s hs k h1 h2

theorem stretches_entry {α : Type} [DecidableEq α] {l : List (Option α)} {s : Nat × Nat × α} (h : s ∈ stretches l) :
    s.1 < s.2.1 ∧ s.2.1 ≤ l.length ∧ ∀ k, s.1 ≤ k → k < s.2.1 → l[k]? = some (some s.2.2) := by
  rw [stretches, List.mem_reverse] at h
  obtain ⟨h1, h2⟩ := stretchesR_bounds _ s h
  refine ⟨h1, by simpa using h2, fun k a b => ?_⟩
  simpa using stretchesR_entry _ s h k a b

theorem tile_color [DecidableEq B] (T : TConf σ P B C) (late : Option (List (Nat × Delayed σ C))) (base r c : Nat) :
    ∃ i j, (tileAt T late base r c).color = (heldAt T late base r c).style.fill.or (T.fillDef i j) := by
  have cell : ∀ r : Nat, ∃ i j, (match cellAt T.content (base + r) c with
    | some cell => (⟨r, c, cell.rows, cell.cols, cell.style.fill.or (T.fillDef (base + r : Nat) c)⟩ : Tile C)
    | none => ⟨r, c, 0, 0, T.style.fill.or (T.fillDef (base + r : Nat) c)⟩).color = (match cellAt T.content (base + r) c with
    | some cell => (⟨cell.content, cell.style, base + r + cell.rows + 1⟩ : Held σ C)
    | none => ⟨some T.blank, T.style, base + r + 1⟩).style.fill.or (T.fillDef i j) := by
    intro r
    cases cellAt T.content (base + r) c <;> exact ⟨_, _, rfl⟩
  match late, r with
  | none, r => exact cell r
  | some l, r + 1 => exact cell (r + 1)
  | some l, 0 =>
    simp only [tileAt, heldAt]
    cases dget c l with
    | none => exact ⟨_, _, rfl⟩
    | some d =>
      simp only
      cases d.content.isSome <;> exact ⟨_, _, rfl⟩

/-- a table keeps its lines and fills if its contents do -/
theorem table_shapes [DecidableEq B] {T : TConf σ P B C} (hrects : RectsOk T.content T.cols) (hflag : FlagOk T.content) (hborder : ∀ i j v, 0 ≤ (T.border i j v).width)
    {given : Option (List Rat)} (hcols : 0 < T.cols) (hwidths : tableWidths T.cols given = .ok T.widths) (hpos : ∀ v ∈ T.widths, 0 ≤ v)
    (hmargin : MarginsOk T.style) (hmargins : ∀ i j cell, cellAt T.content i j = some cell → MarginsOk cell.style) {pal : Palette B C} (hk : KeepsShapes pal T.exec)
    (hlook : ∀ i j v, 0 < (T.border i j v).width → pal.border (T.border i j v)) (hthick : ∀ i j v, (T.border i j v).width ≤ 2 * pal.out)
    (hfills : ∀ i j c, T.fillDef i j = some c → pal.color c) (hstyle : ∀ c, T.style.fill = some c → pal.color c)
    (hcells : ∀ i j cell c, cellAt T.content i j = some cell → cell.style.fill = some c → pal.color c)
    {x0 y0 w0 h0 : Rat} {rects : List (Rat × Rat × Rat × Rat)} {ps : List P} {s s' : TS σ P B C}
    (hs : (TS.new x0 y0 w0 h0).runs T rects = .ok (ps, s)) {x y w h : Rat} (hw : 0 ≤ w) (hr : s.run T x y w h = .ok s') :
    ShapesFit pal ⟨x, x + w, y, y - h⟩ s'.lines s'.fills := by
  obtain ⟨w1, w2, -⟩ := C32_widths_normalised _ _ _ hwidths hcols
  rcases C66_lines_and_fills_partial T hrects hflag hborder given hcols hwidths x0 y0 w0 h0 rects ps s s' hs x y w h hr with h1 | ⟨rows, cells, outs, hd⟩
  · rw [h1.2.2.1, h1.2.2.2]
    exact ⟨by simp, by simp⟩
  have hT : TableOk T := ⟨hrects, hflag, hborder, w1, w2⟩
  have hst : ∀ r c, StyleOk T (heldAt T (if s.delayed.isEmpty then none else some s.delayed) s.index r c).style := fun r c =>
    heldAt_style (runs_between hT rects (between_new T x0 y0 w0 h0) hs).delayed s.index r c
  have hX : Monotone (colX T.widths x w) := by
    refine monotone_nat_of_le_succ fun n => ?_
    rw [← colX_next]
    have : 0 ≤ T.widths.getD n 0 := by
      rw [List.getD_eq_getElem?_getD]
      cases hv : T.widths[n]? with
      | none => simp
      | some v => simpa using hpos v (List.mem_of_getElem? hv)
    have := mul_nonneg this hw
    linarith
  have hX0 : colX T.widths x w 0 = x := by simp [colX]
  have hXn : colX T.widths x w T.cols = x + w := (hT.right x w).symm
  have hb := fun i j v => div_nonneg (hborder i j v) (show (0 : Rat) ≤ 2 by norm_num)
  have hin : ∀ q ∈ outs, ShapesFit pal ⟨x, x + w, y, y - h⟩ q.2.lines q.2.fills := by
    intro q hq
    obtain ⟨⟨c, -, hc⟩, -⟩ := hd.ran q hq
    obtain ⟨i1, i2⟩ := hd.inside q.1 (hd.order.subset (List.mem_map_of_mem hq))
    have hm : MarginsOk (heldAt T (if s.delayed.isEmpty then none else some s.delayed) s.index q.1.row q.1.col).style := by
      rcases hst q.1.row q.1.col with h1 | ⟨i, j, cell, h1, h2⟩
      · rw [h1]; exact hmargin
      · rw [h2]; exact hmargins i j cell h1
    obtain ⟨m1, m2, m3, m4⟩ := hm
    refine ShapesFit.mono (hk _ _ _ _ _ _ hc) ?_ ?_ ?_
    · have := hX (Nat.zero_le q.1.col)
      rw [hX0] at this
      simp only [padLeft]
      linarith [hb (s.index + q.1.row : Nat) q.1.col true]
    · have := hX (show q.1.col + q.1.cols + 1 ≤ T.cols from i2)
      rw [hXn] at this
      simp only [padRight]
      linarith [hb (s.index + q.1.row : Nat) (q.1.col + q.1.cols + 1 : Nat) true]
    · have := hd.tops (Nat.zero_le q.1.row) (by omega)
      rw [hd.top] at this
      simp only [padTop]
      linarith [hb (s.index + q.1.row : Nat) q.1.col false]
  -- the borders of the grid
  let Fine : Bd B → Prop := fun b => 0 ≤ b.width ∧ b.width ≤ 2 * pal.out ∧ (0 < b.width → pal.border b)
  have fine : ∀ i j v, Fine (T.border i j v) := fun i j v => ⟨hborder i j v, hthick i j v, hlook i j v⟩
  have hout : 0 ≤ pal.out := by linarith [hborder 0 0 true, hthick 0 0 true]
  have unl : ∀ {p : Prop} {i j v} {b : Bd B}, Unless p (T.border i j v) b → Fine b := by
    intro p i j v b hu
    rcases hu with ⟨-, rfl⟩ | ⟨-, rfl⟩
    · refine ⟨le_refl _, ?_, fun hlt => absurd hlt (lt_irrefl _)⟩
      show (0 : Rat) ≤ 2 * pal.out
      linarith
    · exact fine _ _ _
  have last : ∀ r, ¬ r + 1 < rows.length → r < rows.length → ∃ g, rows[r]? = some g ∧ g.tops = (List.range T.cols).map (fun c : Nat => T.border s'.index c false) ∧ g.lefts = [] := by
    intro r h1 h2
    obtain rfl : r = rows.length - 1 := by omega
    obtain ⟨g, hg⟩ : ∃ g, rows.getLast? = some g := by
      cases hgl : rows.getLast? with
      | none => exact absurd (List.getLast?_eq_none_iff.1 hgl) hd.ends.1
      | some g => exact ⟨g, rfl⟩
    exact ⟨g, by rw [← List.getLast?_eq_getElem?]; exact hg, hd.below g hg⟩
  have lefts : ∀ (r c : Nat) (b : Bd B), c ≤ T.cols → (rows[r]?.bind (·.lefts[c]?)) = some b → Fine b ∧ r + 1 < rows.length := by
    intro r c b hc he
    have hr : r < rows.length := by
      by_contra hn
      rw [List.getElem?_eq_none (not_lt.1 hn)] at he
      cases he
    by_cases h1 : r + 1 < rows.length
    · refine ⟨?_, h1⟩
      rcases Nat.lt_or_ge c T.cols with h2 | h2
      · obtain ⟨b', e1, e2⟩ := hd.left r c h1 h2
        rw [he] at e1
        cases e1
        exact unl e2
      · obtain rfl : c = T.cols := by omega
        have e1 := hd.right r h1
        rw [he] at e1
        cases e1
        exact fine _ _ _
    · obtain ⟨g, e1, -, e3⟩ := last r h1 hr
      rw [e1] at he
      simp [e3] at he
  have tops : ∀ (r c : Nat) (b : Bd B), c < T.cols → (rows[r]?.bind (·.tops[c]?)) = some b → Fine b := by
    intro r c b hc he
    have hr : r < rows.length := by
      by_contra hn
      rw [List.getElem?_eq_none (not_lt.1 hn)] at he
      cases he
    by_cases h1 : r + 1 < rows.length
    · obtain ⟨b', e1, e2⟩ := hd.above r c h1 hc
      rw [he] at e1
      cases e1
      exact unl e2
    · obtain ⟨g, e1, e2, -⟩ := last r h1 hr
      rw [e1] at he
      simp only [Option.bind_some, e2, List.getElem?_map] at he
      rw [List.getElem?_range hc] at he
      cases he
      exact fine _ _ _
  have leftW : ∀ r c : Nat, c ≤ T.cols → 0 ≤ leftWidth rows r c ∧ leftWidth rows r c ≤ 2 * pal.out := by
    intro r c hc
    unfold leftWidth
    cases he : rows[r]?.bind (·.lefts[c]?) with
    | none => exact ⟨le_refl _, by show (0 : Rat) ≤ _; linarith⟩
    | some b => exact ⟨(lefts r c b hc he).1.1, (lefts r c b hc he).1.2.1⟩
  have topW : ∀ r c : Nat, c ≤ T.cols → 0 ≤ topWidth rows r c ∧ topWidth rows r c ≤ 2 * pal.out := by
    intro r c hc
    unfold topWidth
    cases he : rows[r]?.bind (·.tops[c]?) with
    | none => exact ⟨le_refl _, by show (0 : Rat) ≤ _; linarith⟩
    | some b =>
      have hlt : c < T.cols := by
        cases hg : rows[r]? with
        | none => rw [hg] at he; cases he
        | some g =>
          rw [hg] at he
          obtain ⟨hlt, -⟩ := List.getElem?_eq_some_iff.1 (show g.tops[c]? = some b from he)
          rwa [hd.lens g (List.mem_of_getElem? hg)] at hlt
      exact ⟨(tops r c b hlt he).1, (tops r c b hlt he).2.1⟩
  have cx : ∀ r c, c ≤ T.cols → 0 ≤ cornerX rows r c ∧ cornerX rows r c ≤ pal.out := by
    intro r c hc
    have a1 := leftW r c hc
    have a2 : 0 ≤ (if r = 0 then 0 else leftWidth rows (r - 1) c) ∧ (if r = 0 then 0 else leftWidth rows (r - 1) c) ≤ 2 * pal.out := by
      split
      · exact ⟨le_refl _, by linarith⟩
      · exact leftW _ _ hc
    unfold cornerX
    have h1 := le_max_left (leftWidth rows r c) (if r = 0 then 0 else leftWidth rows (r - 1) c)
    have h2 := max_le a1.2 a2.2
    constructor <;> linarith
  have cy : ∀ r c, c ≤ T.cols → 0 ≤ cornerY rows r c ∧ cornerY rows r c ≤ pal.out := by
    intro r c hc
    have a1 := topW r c hc
    have a2 : 0 ≤ (if c = 0 then 0 else topWidth rows r (c - 1)) ∧ (if c = 0 then 0 else topWidth rows r (c - 1)) ≤ 2 * pal.out := by
      split
      · exact ⟨le_refl _, by linarith⟩
      · exact topW _ _ (by omega)
    unfold cornerY
    have h1 := le_max_left (topWidth rows r c) (if c = 0 then 0 else topWidth rows r (c - 1))
    have h2 := max_le a1.2 a2.2
    constructor <;> linarith
  have seen_some : ∀ {b b' : Bd B}, seen b = some b' → b' = b ∧ 0 < b.width := by
    intro b b' h
    unfold seen at h
    split at h
    · cases h; exact ⟨rfl, by assumption⟩
    · cases h
  have hdown : ∀ r, r < rows.length → topY rows r ≤ y := fun r hr => by
    have := hd.tops (Nat.zero_le r) hr
    rwa [hd.top] at this
  constructor
  · intro l hl
    rcases List.mem_append.1 (hd.drawn.subset hl) with hl | hl
    · obtain ⟨q, hq, hl⟩ := List.mem_flatMap.1 hl
      exact (hin q hq).1 l hl
    rcases List.mem_append.1 hl with hl | hl
    · obtain ⟨r, hr, hl⟩ := List.mem_flatMap.1 hl
      rw [List.mem_range] at hr
      obtain ⟨⟨i, j, b⟩, hst', rfl⟩ := List.mem_map.1 hl
      obtain ⟨h1, h2, h3⟩ := stretches_entry hst'
      simp only at h1 h2 h3
      obtain ⟨g, hg⟩ : ∃ g, rows[r]? = some g := ⟨rows[r], List.getElem?_eq_getElem hr⟩
      rw [hg] at h2 h3
      simp only [Option.map_some, Option.getD_some, List.length_map, hd.lens g (List.mem_of_getElem? hg)] at h2
      have h4 := h3 i (le_refl _) h1
      simp only [Option.map_some, Option.getD_some, List.getElem?_map, Option.map_eq_some_iff] at h4
      obtain ⟨b', h5, h6⟩ := h4
      obtain ⟨rfl, h7⟩ := seen_some h6
      have hf := tops r i b (by omega) (by rw [hg]; exact h5)
      refine ⟨hf.2.2 h7, ⟨h7, hf.2.1⟩, .inl ⟨rfl, ?_, ?_, ?_, ?_⟩⟩
      · have := hX (Nat.zero_le i)
        rw [hX0] at this
        have := (cx r i (by omega)).2
        simp only [rowLine]
        linarith
      · have := hX (le_of_lt h1)
        have := (cx r i (by omega)).1
        have := (cx r j h2).1
        simp only [rowLine]
        linarith
      · have := hX h2
        rw [hXn] at this
        have := (cx r j h2).2
        simp only [rowLine]
        linarith
      · have := hdown r hr
        have := hf.2.1
        simp only [rowLine]
        linarith
    · obtain ⟨c, hc, hl⟩ := List.mem_flatMap.1 hl
      rw [List.mem_range] at hc
      obtain ⟨⟨i, j, b⟩, hst', rfl⟩ := List.mem_map.1 hl
      obtain ⟨h1, h2, h3⟩ := stretches_entry hst'
      simp only at h1 h2 h3
      have entry : ∀ k, i ≤ k → k < j → Fine b ∧ 0 < b.width ∧ k + 1 < rows.length := by
        intro k a1 a2
        have h4 := h3 k a1 a2
        rw [List.getElem?_map, Option.map_eq_some_iff] at h4
        obtain ⟨g, hg, h5⟩ := h4
        rw [Option.bind_eq_some_iff] at h5
        obtain ⟨b', h5, h6⟩ := h5
        obtain ⟨rfl, h7⟩ := seen_some h6
        obtain ⟨k1, k2⟩ := lefts k c b (by omega) (by rw [hg]; exact h5)
        exact ⟨k1, h7, k2⟩
      obtain ⟨hf, h7, -⟩ := entry i (le_refl _) h1
      have hj : j < rows.length := by
        have := (entry (j - 1) (by omega) (by omega)).2.2
        omega
      have hf2 := hf.2.1
      refine ⟨hf.2.2 h7, ⟨h7, hf2⟩, .inr ⟨rfl, ?_, ?_, ?_, _, rfl, ?_⟩⟩
      · have := hX (Nat.zero_le c)
        rw [hX0] at this
        simp only [colLine]
        linarith
      · have := hX (show c ≤ T.cols by omega)
        rw [hXn] at this
        simp only [colLine]
        linarith
      · have := hdown i (by omega)
        have := (cy i c (by omega)).2
        simp only [colLine]
        linarith
      · have := hd.tops (le_of_lt h1) hj
        have := (cy i c (by omega)).1
        have := (cy j c (by omega)).1
        simp only [colLine]
        linarith
  · intro f hf
    rcases List.mem_append.1 (hd.filled.subset hf) with hf | hf
    · obtain ⟨q, hq, hf⟩ := List.mem_flatMap.1 hf
      exact (hin q hq).2 f hf
    obtain ⟨e, he, hf⟩ := List.mem_filterMap.1 hf
    unfold Tile.box at hf
    rw [Option.map_eq_some_iff] at hf
    obtain ⟨c, hc, rfl⟩ := hf
    obtain ⟨i1, i2⟩ := hd.inside e he
    have hcol : pal.color c := by
      rw [hd.source e he] at hc
      obtain ⟨i, j, hij⟩ := tile_color T (if s.delayed.isEmpty then none else some s.delayed) s.index e.row e.col
      rw [hij] at hc
      have hsf : ∀ c', (heldAt T (if s.delayed.isEmpty then none else some s.delayed) s.index e.row e.col).style.fill = some c' → pal.color c' := by
        intro c' hc'
        rcases hst e.row e.col with h1 | ⟨i, j, cell, h1, h2⟩
        · rw [h1] at hc'; exact hstyle c' hc'
        · rw [h2] at hc'; exact hcells i j cell c' h1 hc'
      cases hv : (heldAt T (if s.delayed.isEmpty then none else some s.delayed) s.index e.row e.col).style.fill with
      | none =>
        rw [hv] at hc
        exact hfills i j c hc
      | some c' =>
        rw [hv] at hc
        cases hc
        exact hsf c hv
    have hend : min (e.row + e.rows + 1) (rows.length - 1) < rows.length := by omega
    refine ⟨hcol, ⟨?_, ?_⟩, ?_, ?_, ?_⟩
    · have := hX (show e.col ≤ e.col + e.cols + 1 by omega)
      simp only
      linarith
    · have := hd.tops (show e.row ≤ min (e.row + e.rows + 1) (rows.length - 1) by omega) hend
      simp only
      linarith
    · have := hX (Nat.zero_le e.col)
      rwa [hX0] at this
    · have := hX (show e.col + e.cols + 1 ≤ T.cols from i2)
      rw [hXn] at this
      simp only
      linarith
    · have := hdown e.row (by omega)
      simp only
      linarith

/-! ### contents of some depth -/

/-- the lines and fills of the contents keep to the rectangle where they have a width that is fine, and a width that is fine stays so -/
structure KeepsNeat (pal : Palette B C) (fine : σ → Rat → Prop) (exec : σ → Rat → Rat → Rat → Rat → Except PyErr (CellOut σ P B C)) : Prop where
  keeps : ∀ c x y w h o, fine c w → exec c x y w h = .ok o → ShapesFit pal ⟨x, x + w, y, y - h⟩ o.lines o.fills
  next : ∀ c x y w h o w', fine c w → exec c x y w h = .ok o → fine c w' → fine o.next w'

variable {pal : Palette B C} {fine : σ → Rat → Prop} {exec : σ → Rat → Rat → Rat → Rat → Except PyErr (CellOut σ P B C)}

theorem KeepsNeat.same (G : KeepsNeat pal fine exec) : SameWhere fine exec (fineExec fine exec) where
  same := by
    intro c x y w h hk
    unfold fineExec
    rw [if_pos hk]
  next := by
    intro c x y w h o w' ho hk
    obtain ⟨h1, h2⟩ := fineExec_ok ho
    exact G.next _ _ _ _ _ _ _ h1 h2 hk

theorem KeepsNeat.shapes (G : KeepsNeat pal fine exec) : KeepsShapes pal (fineExec fine exec) := by
  intro c x y w h o ho
  obtain ⟨h1, h2⟩ := fineExec_ok ho
  exact G.keeps _ _ _ _ _ _ h1 h2

theorem table_neat [DecidableEq B] (G : KeepsNeat pal fine exec) {D : TabData σ B C} {Ws : List Rat} (hD : TableIn fine D Ws) (hL : TableLooks pal D)
    {rects : List (Rat × Rat × Rat × Rat)} (hW : ∀ r ∈ rects, r.2.2.1 ∈ Ws) {x0 y0 w0 h0 : Rat} {ps : List P} {s s' : TS σ P B C}
    (hs : (TS.new x0 y0 w0 h0).runs (D.conf exec) rects = .ok (ps, s)) {x y w h : Rat} (hw : w ∈ Ws) (hr : s.run (D.conf exec) x y w h = .ok s') :
    ShapesFit pal ⟨x, x + w, y, y - h⟩ s'.lines s'.fills := by
  have hb : ∀ j, ∀ W ∈ Ws, ∀ i : Nat, fine (D.conf exec).blank (boxWidth (D.conf exec) W i j 0 (D.conf exec).style) := fun j W hW i => hD.blank W hW i j
  have hl : RowsFine (D.conf exec) fine Ws := fun i j c hc x hx W hW i' => hD.fits i j c x hc hx W hW i'
  obtain ⟨h1, h2⟩ := runs_cong (T := D.conf exec) G.same hb hl rects hW (LateFine.new x0 y0 w0 h0)
  have h3 := (run_cong (T := D.conf exec) G.same hb hl (x := x) (y := y) (h := h) hw (h2 ps s hs)).1
  obtain ⟨given, hg⟩ := hD.widths
  rw [← h1] at hs
  rw [← h3] at hr
  exact table_shapes (T := D.conf (fineExec fine exec)) hD.rects hD.flag hD.border hD.cols hg hD.pos hD.style hD.cells G.shapes hL.border hL.thick hL.fills hL.style hL.cells hs
    (hD.wide w hw) hr

/-- nothing is to be seen -/
def noArea (_ : P) : Area := ⟨0, 0, 0, 0⟩

theorem noArea_keeps (exec : σ → Rat → Rat → Rat → Rat → Except PyErr (CellOut σ P B C)) : KeepsIn noArea exec :=
  fun _ _ _ _ _ _ _ _ _ hs => absurd hs (lt_irrefl _)

theorem box_neat (G : KeepsNeat pal fine exec) {els : List (CEl σ)} {Ws : List Rat} {gap : Option Rat} (hb : BoxIn fine gap els Ws) {fuel : Nat}
    {rects : List (Rat × Rat × Rat × Rat)} (hW : ∀ r ∈ rects, r.2.2.1 ∈ Ws) {ps : List (CPart P)} {s s' : CContent σ P B C}
    (hs : (CContent.new 1 gap els).runs exec fuel rects = .ok (ps, s)) {x y w h : Rat} (hw : w ∈ Ws) (hr : s.run exec fuel x y w h = .ok s') :
    ShapesFit pal ⟨x, x + w, y, y - h⟩ s'.out.lines s'.out.fills := by
  obtain ⟨hg, m, m0, m1, m2⟩ := hb
  have he : ElsFine fine Ws els := by
    intro e he
    have ht := m2 e he
    cases e with
    | leaf c st => exact ht.2
    | image i => trivial
    | group l t st => exact ht.elim
    | child => exact ht.elim
  have helw : ∀ e ∈ els, ElIn True m (columnWidth 1 gap w) e := by
    intro e he
    have ht := m2 e he
    cases e with
    | leaf c st => exact .leaf ht.1
    | image i => exact .image ht
    | group l t st => exact ht.elim
    | child => exact ht.elim
  have hcw : ∀ W ∈ Ws, colWidthOf 1 gap W ∈ Ws := fun W hW => by rw [colWidthOf_one]; exact hW
  obtain ⟨e1, e2⟩ := contentBox_runs_cong G.same rects (ContentFine.new 1 gap he) (fun r hr => hcw _ (hW r hr)) (fuel := fuel)
  have e3 := e2 ps s hs
  rw [← e1] at hs
  have h0 : ContentIn True m w (CContent.new 1 gap els : CContent σ P B C) :=
    ⟨Nat.one_pos, fun _ => rfl, hg, m0, (by rw [show (CContent.new 1 gap els : CContent σ P B C).cols = 1 from rfl, columnWidth_one]; exact m1 w hw), helw, by intro f hf; cases hf⟩
  have h1 := content_runs_one (noArea_keeps _) fuel rects (fun r hr => m1 _ (hW r hr)) _ _ _ _ h0 hs
  have hc : s.cols = 1 := h1.one_ trivial
  rw [← (contentBox_run_cong G.same e3 (by rw [hc, colWidthOf_one]; exact hw)).1] at hr
  exact (content_run_shapes G.shapes h1 hr).2

/-- paragraphs and images draw no lines and fills -/
def NoShapes (leaf : Λ → Rat → Rat → Rat → Rat → Except PyErr (CellOut Λ Q B C)) : Prop := ∀ c x y w h o, leaf c x y w h = .ok o → o.lines = [] ∧ o.fills = []

theorem node_neat [DecidableEq B] {leaf : Λ → Rat → Rat → Rat → Rat → Except PyErr (CellOut Λ Q B C)} (hleaf : NoShapes leaf) (fuel n : Nat)
    (G : KeepsNeat pal (nestNeat pal n) (nestExec leaf fuel n : Nest Λ B C n → _)) :
    KeepsNeat pal (nestNeat pal (n + 1)) (nestExec leaf fuel (n + 1) : Nest Λ B C (n + 1) → _) where
  keeps := by
    intro c x y w h o hc ho
    match c, hc, ho with
    | .leaf tag l, hc, ho =>
      obtain ⟨o', h1, rfl⟩ := tagExec_ok ho
      obtain ⟨e1, e2⟩ := hleaf _ _ _ _ _ _ h1
      show ShapesFit pal _ o'.lines o'.fills
      rw [e1, e2]
      exact ⟨by simp, by simp⟩
    | .table D rects, hc, ho =>
      obtain ⟨ps, s, h1, ⟨-, rfl⟩ | ⟨s', h2, -, rfl⟩⟩ := tableExec_cases ho
      · exact ⟨(by intro l hl; cases hl), (by intro l hl; cases hl)⟩
      · exact table_neat G hc.1 hc.2 (fun r hr => List.mem_cons_of_mem _ (List.mem_map_of_mem hr)) h1 (by simp) h2
    | .box gap els rects, hc, ho =>
      obtain ⟨ps, s, h1, ⟨-, rfl⟩ | ⟨s', -, h2, -, rfl⟩⟩ := boxExec_cases ho
      · exact ⟨(by intro l hl; cases hl), (by intro l hl; cases hl)⟩
      · exact box_neat G hc (fun r hr => List.mem_cons_of_mem _ (List.mem_map_of_mem hr)) h1 (by simp) h2
  next := by
    intro c x y w h o w' hc ho hc'
    match c, hc, ho, hc' with
    | .leaf tag l, hc, ho, hc' =>
      obtain ⟨o', h1, rfl⟩ := tagExec_ok ho
      trivial
    | .table D rects, hc, ho, hc' =>
      obtain ⟨ps, s, h1, ⟨-, rfl⟩ | ⟨s', h2, -, rfl⟩⟩ := tableExec_cases ho
      · exact hc'
      · have hW : ∀ {p : Rat → Prop}, (∀ W ∈ w :: rects.map (·.2.2.1), p W) → (∀ W ∈ w' :: rects.map (·.2.2.1), p W) →
            ∀ W ∈ w' :: (rects ++ [(x, y, w, h)]).map (·.2.2.1), p W := by
          intro p h1 h2 W hW
          simp only [List.map_append, List.map_cons, List.map_nil, List.mem_cons, List.mem_append, List.not_mem_nil, or_false] at hW
          rcases hW with hW | hW | hW
          · exact h2 W (by simp [hW])
          · exact h2 W (List.mem_cons_of_mem _ hW)
          · exact h1 W (by simp [hW])
        obtain ⟨hc, hk⟩ := hc
        obtain ⟨hc', -⟩ := hc'
        refine ⟨?_, hk⟩
        exact ⟨hc.rects, hc.flag, hc.border, hc.cols, hc.widths, hc.pos, hc.style, hc.cells, hW hc.wide hc'.wide, hW hc.blank hc'.blank,
          fun i j c x h1 h2 => hW (hc.fits i j c x h1 h2) (hc'.fits i j c x h1 h2)⟩
    | .box gap els rects, hc, ho, hc' =>
      obtain ⟨ps, s, h1, ⟨-, rfl⟩ | ⟨s', -, h2, -, rfl⟩⟩ := boxExec_cases ho
      · exact hc'
      · obtain ⟨hg, m, m0, m1, m2⟩ := hc
        obtain ⟨-, m', m0', m1', m2'⟩ := hc'
        have hW : ∀ {p p' q : Rat → Prop}, (∀ W, p W → q W) → (∀ W, p' W → q W) → (∀ W ∈ w :: rects.map (·.2.2.1), p W) → (∀ W ∈ w' :: rects.map (·.2.2.1), p' W) →
            ∀ W ∈ w' :: (rects ++ [(x, y, w, h)]).map (·.2.2.1), q W := by
          intro p p' q g g' h1 h2 W hW
          simp only [List.map_append, List.map_cons, List.map_nil, List.mem_cons, List.mem_append, List.not_mem_nil, or_false] at hW
          rcases hW with hW | hW | hW
          · exact g' _ (h2 W (by simp [hW]))
          · exact g' _ (h2 W (List.mem_cons_of_mem _ hW))
          · exact g _ (h1 W (by simp [hW]))
        refine ⟨hg, min m m', le_min m0 m0', hW (fun W h => le_trans (min_le_left _ _) h) (fun W h => le_trans (min_le_right _ _) h) m1 m1', fun e he => ?_⟩
        have t := m2 e he
        have t' := m2' e he
        cases e with
        | leaf c st => exact ⟨t.1, hW (fun _ h => h) (fun _ h => h) t.2 t'.2⟩
        | image i => exact ⟨t.1, le_min t.2.1 t'.2.1, t.2.2⟩
        | group l t st => exact t.elim
        | child => exact t.elim

theorem nest_neat [DecidableEq B] (pal : Palette B C) {leaf : Λ → Rat → Rat → Rat → Rat → Except PyErr (CellOut Λ Q B C)} (hleaf : NoShapes leaf) (fuel : Nat) :
    ∀ n, KeepsNeat pal (nestNeat pal n) (nestExec leaf fuel n : Nest Λ B C n → _)
  | 0 => ⟨fun c => c.elim, fun c => c.elim⟩
  | n + 1 => node_neat hleaf fuel n (nest_neat pal hleaf fuel n)

theorem KeepsNeat.steps (G : KeepsNeat pal fine exec) : ∀ (rects : List (Rat × Rat × Rat × Rat)) (c : σ), (∀ r ∈ rects, fine c r.2.2.1) → StepsFit pal exec c rects
  | [], _, _ => trivial
  | (x, y, w, h) :: l, c, hc => fun o ho =>
    ⟨G.keeps c x y w h o (hc (x, y, w, h) (by simp)) ho,
      G.steps l _ fun r hr => G.next c x y w h o r.2.2.1 (hc (x, y, w, h) (by simp)) ho (hc r (by simp [hr]))⟩

/-- **C92.** A table or content box, with tables and content boxes inside each other to any depth, run in rectangles one after the other: its lines are horizontal or
vertical, look like borders of its tables, and are, with their thickness, between the left and right side of each rectangle and not above its top, up to half of the width
of the widest border; its fills have colours of its tables and are between the sides and not above the top. -/
theorem C92_lines_and_fills_partial [DecidableEq B] (pal : Palette B C) (leaf : Λ → Rat → Rat → Rat → Rat → Except PyErr (CellOut Λ Q B C)) (hleaf : NoShapes leaf) (fuel n : Nat)
    (c : Nest Λ B C n) (rects : List (Rat × Rat × Rat × Rat)) (hc : ∀ r ∈ rects, nestNeat pal n c r.2.2.1) : StepsFit pal (nestExec leaf fuel n) c rects :=
  (nest_neat pal hleaf fuel n).steps rects c hc

theorem doc_plain (T : TextEnv) : NoShapes (docExec T) := by
  intro c x y w h o ho
  cases c with
  | par a rects correct =>
    simp only [docExec, docParExec] at ho
    split at ho
    · cases ho; exact ⟨rfl, rfl⟩
    · split at ho
      · cases ho
      · cases ho; exact ⟨rfl, rfl⟩
  | image im shown =>
    cases shown with
    | true => cases ho; exact ⟨rfl, rfl⟩
    | false =>
      simp only [docExec, docImageExec] at ho
      split at ho
      · cases ho
      · split at ho
        · cases ho; exact ⟨rfl, rfl⟩
        · cases ho; exact ⟨rfl, rfl⟩

/-! ### An example -/

/-- a table with a fill behind one cell; its vertical lines are thinner, and there is no line between its rows -/
def ex92Data : TabData (Nest Rat Nat Nat 1) Nat Nat :=
  { blockNestTable 0 [[blockNestCell (blockAt 0 10), blockNestCell (blockAt 0 20)], [blockNestCell (blockAt 0 30), none]] [1 / 2, 1 / 2] with
    fillDef := fun i j => if i = 0 ∧ j = 1 then some 7 else none
    border := fun i _ v => if v then ⟨1, 3⟩ else if i = 1 then ⟨0, 0⟩ else ⟨2, 4⟩ }

/-- a box with a block and the table, which has margins of 3 -/
def ex92Box : Nest Rat Nat Nat 3 :=
  Node.box none [.leaf (blockAt 1 15) ⟨0, 5, 0, 0, none, false, .flow⟩, .leaf (Node.table ex92Data []) ⟨0, 5, 3, 3, none, false, .flow⟩] []

/-- its lines: both ends, width and look; its fills: lower left corner, width, height and colour -/
def ex92Drawn (x y w h : Rat) : Option (List (List Rat × Nat) × List (List Rat × Nat)) :=
  match nestExec blockExec 400 3 ex92Box x y w h with
  | .ok o => some (o.lines.map fun l => ([l.x1, l.y1, l.x2, l.y2.getD 0, l.width], l.look), o.fills.map fun f => ([f.x, f.y, f.width, f.height], f.color))
  | .error _ => none

example : ex92Drawn 0 100 96 100 = some ([([5 / 2, 80, 187 / 2, 80, 2], 4), ([5 / 2, 18, 187 / 2, 18, 2], 4), ([3, 81, 3, 17, 1], 3), ([48, 81, 48, 17, 1], 3),
    ([93, 81, 93, 17, 1], 3)], [([48, 54, 45, 26], 7)]) := by decide +kernel

def ex92Palette : Palette Nat Nat := ⟨fun b => b = ⟨1, 3⟩ ∨ b = ⟨2, 4⟩, fun c => c = 7, 1⟩

theorem ex92_neat : nestNeat ex92Palette 3 ex92Box 96 := by
  refine ⟨(by intro g hg; cases hg), 96, by norm_num, ?_, ?_⟩
  · intro W hW
    rw [List.mem_singleton.1 hW]
  · intro e he
    simp only [List.mem_cons, List.not_mem_nil, or_false] at he
    rcases he with rfl | rfl
    · exact ⟨⟨by norm_num, by norm_num, by norm_num, by norm_num⟩, fun _ _ => trivial⟩
    · refine ⟨⟨by norm_num, by norm_num, by norm_num, by norm_num⟩, fun W hW => ⟨?_, ?_⟩⟩
      · rw [List.mem_singleton.1 hW]
        have h := blockTable_in (n := 0) (a := blockAt 0 10) (b := blockAt 0 20) (c := blockAt 0 30) (.inr rfl) (.inl rfl) (W := 96 - 3 - 3) (by norm_num) (by
          rintro i j x (⟨rfl, rfl⟩ | ⟨rfl, rfl⟩ | ⟨rfl, rfl⟩) <;> trivial)
        refine ⟨h.rects, h.flag, ?_, h.cols, h.widths, h.pos, h.style, h.cells, h.wide, fun _ _ _ _ => trivial, ?_⟩
        · intro i j v
          simp only [ex92Data]
          split
          · norm_num
          · split <;> norm_num
        · intro i j d x hd hx V hV i'
          rcases cellAt_row (.inr rfl) hd with ⟨-, -, e⟩ | ⟨-, -, e⟩ | ⟨-, -, e⟩ <;> cases e <;> cases hx <;> trivial
      · refine ⟨?_, ?_, ?_, ?_, ?_⟩
        · intro i j v hp
          simp only [ex92Data] at hp ⊢
          split at hp
          · rename_i e
            rw [if_pos e]
            exact .inl rfl
          · rename_i e
            rw [if_neg e]
            split at hp
            · exact absurd hp (by norm_num)
            · rename_i e
              rw [if_neg e]
              exact .inr rfl
        · intro i j v
          simp only [ex92Data, ex92Palette]
          split
          · norm_num
          · split <;> norm_num
        · intro i j c hc
          simp only [ex92Data] at hc
          split at hc
          · cases hc; rfl
          · cases hc
        · intro c hc
          cases hc
        · intro i j d c hd hc
          rcases cellAt_row (.inr rfl) hd with ⟨-, -, e⟩ | ⟨-, -, e⟩ | ⟨-, -, e⟩ <;> cases e <;> cases hc

/-- C92 for it, in rectangles of any height -/
example (fuel : Nat) (l : List (Rat × Rat × Rat)) : StepsFit ex92Palette (nestExec blockExec fuel 3) ex92Box (l.map fun q => (q.1, q.2.1, 96, q.2.2)) :=
  C92_lines_and_fills_partial ex92Palette blockExec (by
    intro c x y w h o ho
    simp only [blockExec] at ho
    split at ho
    all_goals cases ho
    all_goals exact ⟨rfl, rfl⟩) fuel 3 ex92Box _ fun r hr => by
    obtain ⟨q, -, rfl⟩ := List.mem_map.1 hr
    exact ex92_neat

end Verif
