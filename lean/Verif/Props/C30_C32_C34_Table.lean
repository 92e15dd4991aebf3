import Verif.Model.TableDefs
import Mathlib.Algebra.BigOperators.Group.List.Basic
import Mathlib.Algebra.BigOperators.Ring.List
import Mathlib.Tactic.Ring
import Mathlib.Tactic.FieldSimp
/-! C30: table checkpoints. C32: columns tile the width. C34: the last border or fill wins. -/
namespace Verif

/-! ### C34 -/

/-- the part before the first `;` and the part after it (everything when there is none) -/
def Spec.posParts (pos : Str) : Str × Str :=
  match splitOn ';' pos with
  | [] => ([], c!":")
  | [r] => (r, c!":")
  | r :: c :: _ => (r, c)

/-- the position string covers row `i`, column `j`: each part selects its index (C14) -/
def Spec.Covers (pos : Str) (rows cols : Nat) (i j : Int) : Prop :=
  (∃ is, tableIndexes (Spec.posParts pos).1 rows = .ok is ∧ i ∈ is) ∧
  (∃ js, tableIndexes (Spec.posParts pos).2 cols = .ok js ∧ j ∈ js)

/-- the last definition of a list that applies -/
def Spec.lastThat {α : Type} (p : α → Bool) (l : List α) : Option α := l.reverse.find? p

theorem posList_mem {pos : Str} {rows cols : Nat} {l : List (Int × Int)} (h : posList pos rows cols = .ok l)
    (i j : Int) : (i, j) ∈ l ↔ Spec.Covers pos rows cols i j := by
  have h' : (do
      let is ← tableIndexes (Spec.posParts pos).1 rows
      let js ← tableIndexes (Spec.posParts pos).2 cols
      pure (is.flatMap fun i => js.map fun j => (i, j))) = (.ok l : Except PyErr _) := h
  unfold Spec.Covers
  cases h1 : tableIndexes (Spec.posParts pos).1 rows with
  | error e => rw [h1] at h'; cases h'
  | ok is =>
    cases h2 : tableIndexes (Spec.posParts pos).2 cols with
    | error e => rw [h1, h2] at h'; cases h'
    | ok js =>
      rw [h1, h2] at h'
      cases h'
      simp [List.mem_flatMap, List.mem_map]

theorem gridGet_set {V : Type} (g : Grid V) (i j i' j' : Int) (v : V) :
    gridGet (gridSet g i j v) i' j' = if i' = i ∧ j' = j then some v else gridGet g i' j' := by
  unfold gridGet gridSet
  rw [dget_dset]
  by_cases hi : i' = i
  · subst hi
    simp only [if_true, Option.bind_some, dget_dset, true_and]
    split
    · rfl
    · cases dget i' g <;> rfl
  · simp [hi]

theorem gridGet_fill {V : Type} (v : V) (l : List (Int × Int)) : ∀ (g : Grid V) (i j : Int),
    gridGet (gridFill v g l) i j = if (i, j) ∈ l then some v else gridGet g i j := by
  induction l with
  | nil => intro g i j; simp [gridFill]
  | cons p l ih =>
    intro g i j
    have := ih (gridSet g p.1 p.2 v) i j
    simp only [gridFill, List.foldl_cons] at this ⊢
    rw [this, gridGet_set]
    obtain ⟨a, b⟩ := p
    by_cases h1 : (i, j) ∈ l
    · simp [h1]
    · by_cases h2 : i = a ∧ j = b
      · obtain ⟨rfl, rfl⟩ := h2; simp [h1]
      · rw [if_neg h1, if_neg h2, if_neg]
        simp only [List.mem_cons, Prod.mk.injEq, not_or]
        exact ⟨h2, h1⟩

/-- the entry is about borders of this direction at this position -/
def Spec.BorderAt {V : Type} (rows cols : Nat) (vert : Bool) (i j : Int) (d : BorderDef V) : Prop :=
  ∃ c pos, d.pos = some (c :: pos) ∧ ((c = 'v' ∨ c = 'V') ↔ vert = true) ∧
    Spec.Covers pos (if vert then rows else rows + 1) (if vert then cols + 1 else cols) i j

open Classical in
theorem setupBorders_spec {V : Type} (mk : V → Except PyErr V) (dflt : List (Str × V)) (rows cols : Nat) :
    ∀ (defs : List (BorderDef V)) (g g' : Grid (List (Str × V)) × Grid (List (Str × V))),
      setupBorders mk dflt rows cols g defs = .ok g' → ∀ (i j : Int) (vert : Bool),
      (match Spec.lastThat (fun d => decide (Spec.BorderAt rows cols vert i j d)) defs with
        | some d => ∃ b, borderOf mk dflt d = .ok b ∧ gridGet (if vert then g'.2 else g'.1) i j = some b
        | none => gridGet (if vert then g'.2 else g'.1) i j = gridGet (if vert then g.2 else g.1) i j) := by
  intro defs
  induction defs with
  | nil =>
    intro g g' h i j vert
    simp only [setupBorders] at h
    cases h
    rfl
  | cons d defs ih =>
    intro g g' h i j vert
    obtain ⟨gh, gv⟩ := g
    simp only [setupBorders] at h
    -- one step: the grids afterwards
    have step : ∃ g1 b, borderOf mk dflt d = .ok b ∧ setupBorders mk dflt rows cols g1 defs = .ok g' ∧
        ∀ vert i j, gridGet (if vert = true then g1.2 else g1.1) i j =
          if Spec.BorderAt rows cols vert i j d then some b else gridGet (if vert = true then gv else gh) i j := by
      cases hb : borderOf mk dflt d with
      | error e => rw [hb] at h; cases h
      | ok b =>
        simp only [hb] at h
        cases hp : d.pos with
        | none =>
          simp only [hp] at h
          refine ⟨(gh, gv), b, rfl, h, fun vert i j => ?_⟩
          have hno : ¬ Spec.BorderAt rows cols vert i j d := by
            rintro ⟨c, pos, h1, _⟩
            rw [hp] at h1; cases h1
          rw [if_neg hno]
        | some s =>
          cases s with
          | nil => simp only [hp] at h; cases h
          | cons c pos =>
            simp only [hp] at h
            by_cases hv : isVertChar c = true
            · have hc : c = 'v' ∨ c = 'V' := by simpa [isVertChar] using hv
              simp only [hv, if_true] at h
              cases hl : posList pos rows (cols + 1) with
              | error e => rw [hl] at h; cases h
              | ok ps =>
                simp only [hl] at h
                refine ⟨_, b, rfl, h, fun vert i j => ?_⟩
                cases vert with
                | true =>
                  simp only [if_true, gridGet_fill]
                  refine if_congr ?_ rfl rfl
                  rw [posList_mem hl]
                  constructor
                  · intro hcv; exact ⟨c, pos, hp, by simp [hc], by simpa using hcv⟩
                  · rintro ⟨c', pos', h1, _, h3⟩
                    rw [hp] at h1; cases h1
                    simpa using h3
                | false =>
                  have hno : ¬ Spec.BorderAt rows cols false i j d := by
                    rintro ⟨c', pos', h1, h2, _⟩
                    rw [hp] at h1; cases h1
                    simp [hc] at h2
                  rw [if_neg hno]
                  rfl
            · have hc : ¬ (c = 'v' ∨ c = 'V') := by simpa [isVertChar] using hv
              simp only [hv] at h
              cases hl : posList pos (rows + 1) cols with
              | error e => rw [hl] at h; cases h
              | ok ps =>
                simp only [hl] at h
                refine ⟨_, b, rfl, h, fun vert i j => ?_⟩
                cases vert with
                | false =>
                  simp only [Bool.false_eq_true, if_false, gridGet_fill]
                  refine if_congr ?_ rfl rfl
                  rw [posList_mem hl]
                  constructor
                  · intro hcv; exact ⟨c, pos, hp, by simp [hc], by simpa using hcv⟩
                  · rintro ⟨c', pos', h1, _, h3⟩
                    rw [hp] at h1; cases h1
                    simpa using h3
                | true =>
                  have hno : ¬ Spec.BorderAt rows cols true i j d := by
                    rintro ⟨c', pos', h1, h2, _⟩
                    rw [hp] at h1; cases h1
                    simp [hc] at h2
                  rw [if_neg hno]
                  rfl
    obtain ⟨g1, b, hb, hg1, hget⟩ := step
    have := ih g1 g' hg1 i j vert
    simp only [Spec.lastThat, List.reverse_cons, List.find?_append] at this ⊢
    cases hf : defs.reverse.find? (fun d => decide (Spec.BorderAt rows cols vert i j d)) with
    | some d' =>
      rw [hf] at this
      simpa using this
    | none =>
      rw [hf] at this
      simp only [List.find?_cons, List.find?_nil, Option.none_or]
      by_cases hd : Spec.BorderAt rows cols vert i j d
      · simp only [hd, decide_true]
        exact ⟨b, hb, by rw [this, hget]; simp [hd]⟩
      · simp only [hd, decide_false]
        rw [this, hget]; simp [hd]

open Classical in
/-- **C34 (borders).** The border used at a grid position is that of the last entry of the list whose
position string covers it (the default border overridden by the entry's own attributes), and the default
border when no entry does. -/
theorem C34_borders {V : Type} (mk : V → Except PyErr V) (dflt : List (Str × V)) (rows cols : Nat)
    (defs : List (BorderDef V)) (g) (h : setupBorders mk dflt rows cols ([], []) defs = .ok g) (i j : Int) (vert : Bool) :
    match Spec.lastThat (fun d => decide (Spec.BorderAt rows cols vert i j d)) defs with
    | some d => borderOf mk dflt d = .ok (getBorder dflt g i j vert)
    | none => getBorder dflt g i j vert = dflt := by
  have := setupBorders_spec mk dflt rows cols defs _ g h i j vert
  unfold getBorder
  cases hf : Spec.lastThat (fun d => decide (Spec.BorderAt rows cols vert i j d)) defs with
  | some d =>
    rw [hf] at this
    obtain ⟨b, h1, h2⟩ := this
    simp [h1, h2]
  | none =>
    rw [hf] at this
    simp only at this ⊢
    rw [this]
    cases vert <;> rfl

/-- what a border made from an entry is: the entry's attributes over the default ones -/
theorem C34_border_value {V : Type} (mk : V → Except PyErr V) (dflt : List (Str × V)) (d : BorderDef V) (b : List (Str × V))
    (h : borderOf mk dflt d = .ok b) (k : Str) (hk : k ≠ c!"color") :
    dget k b = ((d.attrs.reverse.find? fun a => a.1 = k).map Prod.snd).or (dget k dflt) := by
  have hfind : ∀ l : List (Str × V), dget k l = (l.find? fun r => r.1 = k).map Prod.snd := by
    intro l
    induction l with
    | nil => rfl
    | cons p l ih =>
      simp only [dget, List.find?_cons]
      by_cases h : p.1 = k <;> simp [h, ih]
  unfold borderOf at h
  simp only at h
  split at h
  · cases h
  · split at h
    · cases h
    · cases h
      rw [dget_dset_ne (Ne.symm hk), dget_dupdate, hfind d.attrs.reverse]

open Classical in
theorem setupFills_spec {V : Type} (rows cols : Nat) : ∀ (defs : List (FillDef V)) (g g' : Grid V),
    setupFills rows cols g defs = .ok g' → ∀ i j : Int,
    gridGet g' i j = ((Spec.lastThat (fun d : FillDef V => decide (∃ pos, d.pos = some pos ∧ Spec.Covers pos rows cols i j))
      defs).map FillDef.color).or (gridGet g i j) := by
  intro defs
  induction defs with
  | nil =>
    intro g g' h i j
    simp only [setupFills] at h
    cases h
    rfl
  | cons d defs ih =>
    intro g g' h i j
    have step : ∃ g1, setupFills rows cols g1 defs = .ok g' ∧ gridGet g1 i j =
        if (∃ pos, d.pos = some pos ∧ Spec.Covers pos rows cols i j) then some d.color else gridGet g i j := by
      simp only [setupFills] at h
      cases hp : d.pos with
      | none => rw [hp] at h; exact ⟨g, h, by simp⟩
      | some pos =>
        simp only [hp] at h
        cases hl : posList pos rows cols with
        | error e => rw [hl] at h; cases h
        | ok ps =>
          simp only [hl] at h
          refine ⟨_, h, ?_⟩
          rw [gridGet_fill]
          refine if_congr ?_ rfl rfl
          rw [posList_mem hl]
          simp
    obtain ⟨g1, h1, h2⟩ := step
    rw [ih g1 g' h1 i j]
    simp only [Spec.lastThat, List.reverse_cons, List.find?_append]
    cases defs.reverse.find? (fun d : FillDef V => decide (∃ pos, d.pos = some pos ∧ Spec.Covers pos rows cols i j)) with
    | some d' => simp
    | none =>
      simp only [Option.map_none, Option.none_or, h2, List.find?_cons, List.find?_nil]
      by_cases hd : ∃ pos, d.pos = some pos ∧ Spec.Covers pos rows cols i j
      · simp only [hd, if_true, decide_true, Option.map_some, Option.some_or]
      · simp only [hd, if_false, decide_false, Option.map_none, Option.none_or]

open Classical in
/-- **C34 (fills).** A cell without a fill of its own gets the colour of the last entry covering it, and
none when no entry does; the cell's own fill comes first. -/
theorem C34_fills {V : Type} (rows cols : Nat) (defs : List (FillDef V)) (g : Grid V)
    (h : setupFills rows cols [] defs = .ok g) (own : Option V) (i j : Int) :
    cellFill g own i j = own.or ((Spec.lastThat (fun d : FillDef V =>
      decide (∃ pos, d.pos = some pos ∧ Spec.Covers pos rows cols i j)) defs).map FillDef.color) := by
  unfold cellFill
  rw [setupFills_spec rows cols defs [] g h i j]
  congr 1
  exact Option.or_none

/-- two overlapping horizontal entries and a vertical one on a 2×3 table -/
example : ∃ g, setupBorders (V := Nat) (fun c => .ok c) [(c!"width", 1), (c!"color", 0)] 2 3 ([], [])
    [⟨some c!"h0;:", [(c!"width", 5)]⟩, ⟨some c!"v;-1", [(c!"width", 7)]⟩, ⟨some c!"h0;1", [(c!"color", 9)]⟩, ⟨none, []⟩] = .ok g ∧
    getBorder [(c!"width", 1), (c!"color", 0)] g 0 0 false = [(c!"width", 5), (c!"color", 0)] ∧
    getBorder [(c!"width", 1), (c!"color", 0)] g 0 1 false = [(c!"width", 1), (c!"color", 9)] ∧
    getBorder [(c!"width", 1), (c!"color", 0)] g 1 3 true = [(c!"width", 7), (c!"color", 0)] ∧
    getBorder [(c!"width", 1), (c!"color", 0)] g 1 1 true = [(c!"width", 1), (c!"color", 0)] :=
  ⟨_, rfl, rfl, rfl, rfl, rfl⟩

/-! ### C32 -/

/-- the widths are proportional to the ones asked for and add up to one -/
theorem C32_widths_normalised (cols : Nat) (given : Option (List Rat)) (ws : List Rat)
    (h : tableWidths cols given = .ok ws) (hcols : 0 < cols) :
    ws.length = cols ∧ ws.sum = 1 ∧
      match given with
      | some gs => gs.length = cols ∧ ∀ i, ws.getD i 0 * gs.sum = gs.getD i 0
      | none => ∀ i, i < cols → ws.getD i 0 = 1 / cols := by
  cases given with
  | none =>
    cases h
    have : (cols : Rat) ≠ 0 := by exact_mod_cast (Nat.pos_iff_ne_zero.1 hcols)
    refine ⟨by simp, ?_, ?_⟩
    · rw [List.sum_replicate, nsmul_eq_mul]
      field_simp
    · intro i hi
      simp [List.getD_eq_getElem?_getD, hi]
  | some gs =>
    simp only [tableWidths] at h
    split at h
    · cases h
    · split at h
      · cases h
      · rename_i h1 h2
        cases h
        have hl : gs.length = cols := by simpa using h1
        have hne : gs ≠ [] := by rintro rfl; simp at hl; omega
        have hs : gs.sum ≠ 0 := fun e => h2 ⟨e, hne⟩
        refine ⟨by simp [hl], ?_, hl, ?_⟩
        · have : (gs.map fun w => w / gs.sum) = gs.map fun w => w * (1 / gs.sum) := by
            apply List.map_congr_left; intro a _; ring
          rw [this, List.sum_map_mul_right]
          simp only [List.map_id']
          field_simp
        · intro i
          rw [List.getD_eq_getElem?_getD, List.getD_eq_getElem?_getD, List.getElem?_map]
          cases gs[i]? with
          | none => simp
          | some w => simp [hs]

/-- a zero sum, or a wrong number of widths, is rejected -/
theorem C32_rejected (cols : Nat) (gs : List Rat) (h : gs.length ≠ cols ∨ (gs.sum = 0 ∧ gs ≠ [])) :
    tableWidths cols (some gs) = .error .exception := by
  simp only [tableWidths]
  rcases h with h | h
  · rw [if_pos h]
  · by_cases h' : gs.length ≠ cols
    · rw [if_pos h']
    · rw [if_neg h', if_pos h]

theorem take_succ_sum (ws : List Rat) (k : Nat) : (ws.take (k + 1)).sum = (ws.take k).sum + ws.getD k 0 := by
  induction ws generalizing k with
  | nil => simp
  | cons w ws ih =>
    cases k with
    | zero => simp
    | succ k => simp only [List.take_succ_cons, List.sum_cons, ih, List.getD_cons_succ]; ring

/-- **C32.** For every widths list, column count, position and table width: the first column starts at the
left edge, each column starts where the one before it ends, the last one ends at the right edge, and a
cell spanning several columns is exactly as wide as they are together. -/
theorem C32_columns_tile (cols : Nat) (given : Option (List Rat)) (ws : List Rat)
    (h : tableWidths cols given = .ok ws) (hcols : 0 < cols) (x width : Rat) :
    colX ws x width 0 = x ∧
    (∀ k, colX ws x width (k + 1) = colRight ws x width k) ∧
    colX ws x width cols = x + width ∧
    (∀ col span, colX ws x width col + cellWidth ws width col span = colX ws x width (col + span)) := by
  obtain ⟨h1, h2, _⟩ := C32_widths_normalised cols given ws h hcols
  refine ⟨by simp [colX], ?_, ?_, ?_⟩
  · intro k
    simp only [colX, colRight, take_succ_sum]
    ring
  · rw [colX, ← h1, List.take_length, h2]
    ring
  · intro col span
    have : (ws.take (col + span)).sum = (ws.take col).sum + ((ws.drop col).take span).sum := by
      rw [List.take_add, List.sum_append]
    simp only [colX, cellWidth, this]
    ring

example : tableWidths 3 (some [1, 2, 1]) = .ok [1/4, 1/2, 1/4] ∧ colX [1/4, 1/2, 1/4] 10 100 2 = 85 ∧
    cellWidth [1/4, 1/2, 1/4] 100 0 2 = 75 := by
  refine ⟨by norm_num [tableWidths], by norm_num [colX], by norm_num [cellWidth]⟩

/-! ### C30 -/

/-- C30, partial: the row index is restored, whatever happened in between. Missing: the pending cells
(`C30_pending_cells_false`). -/
theorem C30_row_restored_partial {D : Type} (t saved : TableMark D) :
    (tableRestore t saved).currentIndex = saved.currentIndex := rfl

/-- C30 fails: `set_state(**get_state())` leaves the pending cells as they are, for every checkpoint. -/
theorem C30_pending_cells_false {D : Type} (t saved : TableMark D) : (tableRestore t saved).delayed = t.delayed := rfl

/-- so a checkpoint taken before a cell was split is not restored -/
theorem C30_restore_false : ∃ t saved : TableMark (List (Nat × Str)), tableRestore t saved ≠ saved :=
  ⟨⟨3, [(0, c!"rest of a split cell")]⟩, ⟨3, []⟩, by
    intro h
    have := congrArg TableMark.delayed h
    simp [tableRestore, tableSetState] at this⟩

end Verif
