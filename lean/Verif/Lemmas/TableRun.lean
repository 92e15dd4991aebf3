import Verif.Model.TableRun
/-! Facts about the cells of a table (table.py:525-828). -/
namespace Verif

variable {σ P B C : Type}

theorem dget_ddrop {K V : Type} [DecidableEq K] (k k' : K) (d : List (K × V)) :
    dget k (ddrop k' d) = if k = k' then none else dget k d := by
  induction d with
  | nil => simp [ddrop, dget]
  | cons p d ih =>
    unfold ddrop at ih ⊢
    by_cases hp : p.1 = k'
    · rw [List.filter_cons_of_neg (by simp [hp]), ih]
      by_cases h : k = k'
      · simp [h]
      · rw [if_neg h, if_neg h, dget, if_neg (fun h' => h (h'.symm.trans hp))]
    · rw [List.filter_cons_of_pos (by simp [hp]), dget, dget, ih]
      by_cases h : p.1 = k
      · rw [if_pos h, if_pos h, if_neg (fun h' => hp (h.trans h'))]
      · rw [if_neg h, if_neg h]

/-- what a cell leaves alone -/
structure CellFrame (s s' : TS σ P B C) : Prop where
  index : s'.index = s.index
  firstRow : s'.firstRow = s.firstRow
  height : s'.height = s.height
  currentHeight : s'.currentHeight = s.currentHeight
  rowMax : s'.rowMax = s.rowMax
  x : s'.x = s.x
  y : s'.y = s.y
  width : s'.width = s.width
  yAbs : s'.yAbs = s.yAbs
  finished : s'.finished = s.finished

theorem CellFrame.refl (s : TS σ P B C) : CellFrame s s := ⟨rfl, rfl, rfl, rfl, rfl, rfl, rfl, rfl, rfl, rfl⟩

theorem CellFrame.trans {s s' s'' : TS σ P B C} (h : CellFrame s s') (h' : CellFrame s' s'') : CellFrame s s'' :=
  ⟨h'.1.trans h.1, h'.2.trans h.2, h'.3.trans h.3, h'.4.trans h.4, h'.5.trans h.5, h'.6.trans h.6, h'.7.trans h.7, h'.8.trans h.8,
    h'.9.trans h.9, h'.10.trans h.10⟩

/-- the cell at `col` is part of a cell that spans several columns or rows -/
def TS.spans (s : TS σ P B C) (col : Nat) (isDelayed : Bool) : Bool :=
  match dget col s.rowspan with
  | none => decide (0 < s.colspan)
  | some _ => !isDelayed

/-- what a merged position does -/
structure Skipped (s s' : TS σ P B C) (col : Nat) : Prop where
  frame : CellFrame s s'
  parts : s'.parts = s.parts
  delayed : s'.delayed = s.delayed
  fills : s'.fills = s.fills
  heightsMem : s'.heightsMem = s.heightsMem
  others : ∀ c, c ≠ col → dget c s'.rowspan = dget c s.rowspan
  none : dget col s.rowspan = none → s'.rowspan = s.rowspan ∧ s'.colspan + 1 = s.colspan ∧ s'.maxHeight = s.maxHeight
  last : ∀ m, dget col s.rowspan = some (1, m) → dget col s'.rowspan = Option.none ∧ s'.colspan = m ∧
    s'.maxHeight = max ((dget col s.heightsMem).getD 0) s.maxHeight
  more : ∀ k m, dget col s.rowspan = some (k, m) → k ≠ 1 → dget col s'.rowspan = some (k - 1, m) ∧ s'.colspan = m ∧
    s'.maxHeight = s.maxHeight

/-- the height a cell takes -/
def cellHeight (firstRow : Bool) (padY h : Rat) : Rat := if h > 0 then h + padY else h + if firstRow then 0 else 4

/-- what running the content of a cell does -/
inductive Filled (T : TConf σ P B C) (s s' : TS σ P B C) (col : Nat) (d : Delayed σ C) (b : CellBox) : Rat → Prop
  | empty : d.content = none → s'.parts = s.parts → s'.delayed = dset col d s.delayed → Filled T s s' col d b 0
  | run {c : σ} {o : CellOut σ P B C} : d.content = some c → T.exec c b.x b.y b.width b.height = .ok o →
      s'.parts = s.parts ++ o.parts →
      s'.delayed = (if o.finished then ddrop col s.delayed else dset col { d with content := some o.next } s.delayed) →
      Filled T s s' col d b o.height

/-- what a position with a cell does -/
structure Started (T : TConf σ P B C) (s s' : TS σ P B C) (col : Nat) (d : Delayed σ C) : Prop where
  frame : CellFrame s s'
  colspan : s'.colspan = d.cols
  rowspan : s'.rowspan = if d.rowsLeft s.index > 0 then dset col ((d.rowsLeft s.index).toNat, d.cols) s.rowspan else s.rowspan
  content : ∃ h b, Filled T s s' col d b h ∧
    (b.width = cellWidth T.widths s.width col (d.cols + 1) - b.padX ∧
      b.padX = (T.border s.index col true).width / 2 + d.style.left + ((T.border s.index (col + d.cols + 1) true).width / 2 + d.style.right)) ∧
    b.height = s.rowMax - b.padY ∧
    b.padY = (T.border s.index col false).width / 2 + d.style.top +
      ((T.border (s.index + d.rowsLeft s.index + 1) col false).width / 2 + d.style.bottom) ∧
    (d.rowsLeft s.index > 0 → s'.heightsMem = dset col (cellHeight s.firstRow b.padY h) s.heightsMem ∧ s'.maxHeight = max 0 s.maxHeight) ∧
    (¬ d.rowsLeft s.index > 0 → s'.heightsMem = s.heightsMem ∧ s'.maxHeight = max (cellHeight s.firstRow b.padY h) s.maxHeight)

theorem ite_max (a b : Rat) : (if a > b then a else b) = max a b := by
  by_cases h : a > b
  · rw [if_pos h, max_eq_left (le_of_lt h)]
  · rw [if_neg h, max_eq_right (not_lt.1 h)]

theorem isSpan_fst (s : TS σ P B C) (col : Nat) (l t : Bd B) (dl : Bool) : (s.isSpan col l t dl).1 = s.spans col dl := by
  unfold TS.isSpan TS.spans
  cases hr : dget col s.rowspan with
  | none =>
    simp only
    split <;> simp_all
  | some q =>
    obtain ⟨r, m⟩ := q
    simp only
    cases dl
    · simp only [Bool.false_eq_true, if_false]; split <;> rfl
    · simp

theorem isSpan_skip [DecidableEq B] {T : TConf σ P B C} {s : TS σ P B C} {col : Nat} {l t : Bd B} {dl : Bool} (h : s.spans col dl = true)
    (a b : Option (Bd B)) : Skipped s ((s.isSpan col l t dl).2.2.2.processBorders T col a b) col := by
  unfold TS.spans at h
  unfold TS.isSpan
  cases hr : dget col s.rowspan with
  | none =>
    rw [hr] at h
    have h' : 0 < s.colspan := by simpa using h
    simp only [if_pos h']
    refine ⟨⟨rfl, rfl, rfl, rfl, rfl, rfl, rfl, rfl, rfl, rfl⟩, rfl, rfl, rfl, rfl, fun _ _ => rfl, fun _ => ⟨rfl, ?_, rfl⟩, by simp [hr], by simp [hr]⟩
    simp only [TS.processBorders]
    omega
  | some q =>
    obtain ⟨r, m⟩ := q
    rw [hr] at h
    have hd : dl = false := by simpa using h
    subst hd
    simp only [Bool.false_eq_true, if_false]
    by_cases h1 : r = 1
    · simp only [if_pos h1]
      refine ⟨⟨rfl, rfl, rfl, rfl, rfl, rfl, rfl, rfl, rfl, rfl⟩, rfl, rfl, rfl, rfl, ?_, by simp [hr], ?_, ?_⟩
      · intro c hc
        simp only [TS.processBorders, dget_ddrop, if_neg hc]
      · intro m' hm
        rw [hr] at hm
        cases hm
        simp only [TS.processBorders, dget_ddrop, if_true, true_and]
        exact ite_max _ _
      · intro k m' hk hk1
        rw [hr] at hk
        cases hk
        exact absurd h1 hk1
    · simp only [if_neg h1]
      refine ⟨⟨rfl, rfl, rfl, rfl, rfl, rfl, rfl, rfl, rfl, rfl⟩, rfl, rfl, rfl, rfl, ?_, by simp [hr], ?_, ?_⟩
      · intro c hc
        simp only [TS.processBorders, dget_dset, if_neg hc]
      · intro m' hm
        rw [hr] at hm
        cases hm
        exact absurd rfl h1
      · intro k m' hk hk1
        rw [hr] at hk
        cases hk
        simp [TS.processBorders]

theorem isSpan_not {s : TS σ P B C} {col : Nat} {l t : Bd B} {dl : Bool} (h : s.spans col dl = false) :
    s.isSpan col l t dl = (false, l, t, s) := by
  unfold TS.spans at h
  unfold TS.isSpan
  cases hr : dget col s.rowspan with
  | none =>
    rw [hr] at h
    have h' : ¬ 0 < s.colspan := by simpa using h
    simp only [if_neg h']
  | some q =>
    rw [hr] at h
    have hd : dl = true := by simpa using h
    simp [hd]

/-- the two cases of `add_cell` -/
theorem addCell_cases [DecidableEq B] {T : TConf σ P B C} {s s' : TS σ P B C} {col : Nat} {el : RowEl σ C} {dl : Bool}
    (h : s.addCell T col el dl = .ok s') :
    (s.spans col dl = true ∧ Skipped s s' col) ∨ (s.spans col dl = false ∧ Started T s s' col (T.element s.index el)) := by
  unfold TS.addCell at h
  simp only [isSpan_fst] at h
  have hs : ({ s with xAbs := colX T.widths s.x s.width col } : TS σ P B C).spans col dl = s.spans col dl := rfl
  rw [hs] at h
  cases hsp : s.spans col dl with
  | true =>
    left
    rw [hsp] at h
    simp only [if_true, Except.ok.injEq] at h
    refine ⟨rfl, ?_⟩
    rw [← h]
    have := isSpan_skip (T := T) (s := { s with xAbs := colX T.widths s.x s.width col }) (l := T.border s.index col true)
      (t := T.border s.index col false) (hs.trans hsp)
      (some (({ s with xAbs := colX T.widths s.x s.width col } : TS σ P B C).isSpan col (T.border s.index col true) (T.border s.index col false) dl).2.1)
      (some (({ s with xAbs := colX T.widths s.x s.width col } : TS σ P B C).isSpan col (T.border s.index col true) (T.border s.index col false) dl).2.2.1)
    exact ⟨⟨this.frame.1, this.frame.2, this.frame.3, this.frame.4, this.frame.5, this.frame.6, this.frame.7, this.frame.8, this.frame.9, this.frame.10⟩,
      this.parts, this.delayed, this.fills, this.heightsMem, this.others, this.none, this.last, this.more⟩
  | false =>
    right
    refine ⟨rfl, ?_⟩
    rw [isSpan_not (hs.trans hsp), hsp] at h
    simp only [Bool.false_eq_true, if_false] at h
    unfold TS.addContent at h
    have hidx : (({ s with xAbs := colX T.widths s.x s.width col } : TS σ P B C).processBorders T col (some (T.border s.index col true)) (some (T.border s.index col false))).index = s.index := rfl
    rw [hidx] at h
    generalize hd : T.element s.index el = d at h ⊢
    -- the fill changes nothing else
    have fill : ∀ (s1 : TS σ P B C) own w later, ∃ fm, s1.setFill T col own w later = { s1 with fillsMem := fm } := by
      intro s1 own w later
      unfold TS.setFill
      split
      · exact ⟨s1.fillsMem, rfl⟩
      · exact ⟨_, rfl⟩
    cases hc : d.content with
    | none =>
      let pad := (T.border s.index col false).width / 2 + d.style.top +
        ((T.border (s.index + d.rowsLeft s.index + 1) col false).width / 2 + d.style.bottom)
      let padX := (T.border s.index col true).width / 2 + d.style.left + ((T.border s.index (col + d.cols + 1) true).width / 2 + d.style.right)
      let box : CellBox := ⟨0, 0, cellWidth T.widths s.width col (d.cols + 1) - padX, s.rowMax - pad, padX, pad⟩
      rw [hc] at h
      simp only at h
      generalize hs1 : TS.setFill T _ col d.style.fill _ _ = s1 at h
      obtain ⟨fm, hfm⟩ := fill _ d.style.fill _ _ |>.imp fun fm hfm => hs1.symm.trans hfm
      subst hfm
      simp only [Except.ok.injEq] at h
      rw [← h]
      simp only [TS.processBorders, TS.addHeight, gt_iff_lt]
      by_cases hr : 0 < d.rowsLeft s.index
      · simp only [if_pos hr]
        refine ⟨⟨rfl, rfl, rfl, rfl, rfl, rfl, rfl, rfl, rfl, rfl⟩, rfl, ?_, 0, box, .empty hc rfl rfl, ⟨rfl, rfl⟩, rfl, rfl, fun _ => ⟨?_, ite_max _ _⟩, fun h => absurd hr h⟩
        · simp only [gt_iff_lt, if_pos hr]
        · simp only [cellHeight, gt_iff_lt, lt_self_iff_false, if_false]; rfl
      · simp only [if_neg hr]
        refine ⟨⟨rfl, rfl, rfl, rfl, rfl, rfl, rfl, rfl, rfl, rfl⟩, rfl, ?_, 0, box, .empty hc rfl rfl, ⟨rfl, rfl⟩, rfl, rfl, fun h => absurd h hr, fun _ => ⟨rfl, ite_max _ _⟩⟩
        simp only [gt_iff_lt, if_neg hr]
    | some c =>
      rw [hc] at h
      simp only at h
      generalize hs1 : TS.setFill T _ col d.style.fill _ _ = s1 at h
      obtain ⟨fm, hfm⟩ := fill _ d.style.fill _ _ |>.imp fun fm hfm => hs1.symm.trans hfm
      subst hfm
      split at h
      · cases h
      · rename_i _ _ o ho heq
        split at heq
        · cases heq
        · rename_i _ o' ho'
          cases heq
          cases h
          simp only [TS.processBorders, TS.addHeight, gt_iff_lt, TS.addOut]
          by_cases hr : 0 < d.rowsLeft s.index
          · simp only [if_pos hr]
            refine ⟨⟨rfl, rfl, rfl, rfl, rfl, rfl, rfl, rfl, rfl, rfl⟩, rfl, ?_, o'.height, _, .run hc ho' rfl rfl, ⟨rfl, rfl⟩, rfl, rfl, fun _ => ⟨?_, ite_max _ _⟩, fun h => absurd hr h⟩
            · simp only [gt_iff_lt, if_pos hr]
            · simp only [cellHeight, gt_iff_lt]; rfl
          · simp only [if_neg hr]
            refine ⟨⟨rfl, rfl, rfl, rfl, rfl, rfl, rfl, rfl, rfl, rfl⟩, rfl, ?_, o'.height, _, .run hc ho' rfl rfl, ⟨rfl, rfl⟩, rfl, rfl, fun h => absurd h hr, fun _ => ⟨rfl, ite_max _ _⟩⟩
            simp only [gt_iff_lt, if_neg hr]

end Verif
