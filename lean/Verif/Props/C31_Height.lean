import Verif.Props.C29_C33_Cells
/-! C31: the height of a table against the height of its rectangle. -/
namespace Verif
open Spec

variable {σ P B C : Type}

/-- contents that keep to the height they are given -/
def Spec.Fits (exec : σ → Rat → Rat → Rat → Rat → Except PyErr (CellOut σ P B C)) : Prop :=
  ∀ c x y w h o, exec c x y w h = .ok o → 0 < o.height → o.height ≤ h

/-- contents that are finished only with some height: not empty ones -/
structure Spec.Solid (exec : σ → Rat → Rat → Rat → Rat → Except PyErr (CellOut σ P B C)) (good : σ → Prop) : Prop where
  done : ∀ c x y w h o, good c → exec c x y w h = .ok o → o.finished = true → 0 < o.height
  next : ∀ c x y w h o, good c → exec c x y w h = .ok o → o.finished = false → good o.next

/-- a table of plain cells with such contents; a position is `None` only if `blank`, which is shown there, is such a content -/
def Spec.PlainSolid (content : List (List (Option (Cell σ C)))) (good : σ → Prop) (blank : σ) : Prop :=
  ∀ row ∈ content, ∀ el ∈ row, (∃ c st, el = some ⟨some c, 0, 0, st⟩ ∧ good c) ∨ (el = none ∧ good blank)

section
variable {T : TConf σ P B C} {good : σ → Prop}

/-- nothing spans, and the delayed cells are good -/
structure HSolid (good : σ → Prop) (s : TS σ P B C) : Prop where
  rowspan : s.rowspan = []
  colspan : s.colspan = 0
  late : ∀ c d, dget c s.delayed = some d → d.cols = 0 ∧ d.rows = 0 ∧ d.row = s.index ∧ ∃ x, d.content = some x ∧ good x

theorem HSolid.cell [DecidableEq B] (hfit : Fits T.exec) (hsol : Solid T.exec good) {s s' : TS σ P B C} (hi : HSolid good s) {col : Nat} {el : RowEl σ C} {dl : Bool}
    (hel : ∃ c st, T.element s.index el = ⟨st, 0, 0, s.index, some c⟩ ∧ (good c ∨ (c = T.blank ∧ dget col s.delayed = none ∧
      ∀ x y w h o, T.exec c x y w h = .ok o → o.finished = true)))
    (h : s.addCell T col el dl = .ok s') :
    HSolid good s' ∧ CellFrame s s' ∧ (∀ c, c ≠ col → dget c s'.delayed = dget c s.delayed) ∧
      s'.maxHeight ≤ max s.maxHeight (max s.rowMax 4) ∧
      (dget col s'.delayed = none → (∀ c st, T.element s.index el = ⟨st, 0, 0, s.index, some c⟩ → good c) → s'.maxHeight ≤ max s.maxHeight s.rowMax) := by
  obtain ⟨c, st, he, hg⟩ := hel
  rcases addCell_cases h with ⟨hsp, -⟩ | ⟨-, hs⟩
  · unfold TS.spans at hsp
    rw [hi.rowspan] at hsp
    simp [dget, hi.colspan] at hsp
  · rw [he] at hs
    obtain ⟨hh, b, hf, -, hbh, -, -, hmax⟩ := hs.content
    have hrl : ¬ (⟨st, 0, 0, s.index, some c⟩ : Delayed σ C).rowsLeft s.index > 0 := by simp [Delayed.rowsLeft]
    obtain ⟨-, hm⟩ := hmax hrl
    cases hf with
    | empty hc => cases hc
    | @run c' o hc hex hp hd =>
      cases hc
      have hother : ∀ c, c ≠ col → dget c s'.delayed = dget c s.delayed := by
        intro c1 hne
        rw [hd]
        split
        · rw [dget_ddrop, if_neg hne]
        · rw [dget_dset_ne (Ne.symm hne)]
      have hch : cellHeight s.firstRow b.padY o.height ≤ max s.rowMax 4 ∧ (0 < o.height → cellHeight s.firstRow b.padY o.height ≤ s.rowMax) := by
        unfold cellHeight
        by_cases hpos : o.height > 0
        · rw [if_pos hpos]
          have := hfit _ _ _ _ _ _ hex hpos
          rw [hbh] at this
          have h1 : o.height + b.padY ≤ s.rowMax := by linarith
          exact ⟨le_trans h1 (le_max_left _ _), fun _ => h1⟩
        · rw [if_neg hpos]
          refine ⟨?_, fun h => absurd h hpos⟩
          apply le_trans _ (le_max_right _ _)
          have := not_lt.1 hpos
          split <;> linarith
      refine ⟨⟨?_, hs.colspan, ?_⟩, hs.frame, hother, ?_, ?_⟩
      · rw [hs.rowspan, if_neg hrl, hi.rowspan]
      · intro c1 d hd1
        rw [hs.frame.index]
        by_cases hc1 : c1 = col
        · subst hc1
          rw [hd] at hd1
          cases hfin : o.finished with
          | true => rw [hfin] at hd1; simp [dget_ddrop] at hd1
          | false =>
            rw [hfin] at hd1
            simp only [Bool.false_eq_true, if_false, dget_dset_self, Option.some.injEq] at hd1
            subst hd1
            refine ⟨rfl, rfl, rfl, o.next, rfl, ?_⟩
            rcases hg with hg | ⟨-, -, hg⟩
            · exact hsol.next _ _ _ _ _ _ hg hex hfin
            · have := hg _ _ _ _ _ hex
              rw [hfin] at this; cases this
        · rw [hother c1 hc1] at hd1
          exact hi.late c1 d hd1
      · rw [hm]
        exact max_le (le_trans hch.1 (le_max_right _ _)) (le_max_left _ _)
      · intro hn hgood
        have hfin : o.finished = true := by
          cases hfin : o.finished with
          | true => rfl
          | false => rw [hd, hfin] at hn; simp at hn
        rw [hm]
        exact max_le (le_trans (hch.2 (hsol.done _ _ _ _ _ _ (hgood c st he) hex hfin)) (le_max_right _ _)) (le_max_left _ _)

theorem HSolid.cells [DecidableEq B] (hfit : Fits T.exec) (hsol : Solid T.exec good) {dl : Bool} (l : List (RowEl σ C)) {col : Nat} {s s' : TS σ P B C}
    (hi : HSolid good s)
    (hel : ∀ (k : Nat) (el : RowEl σ C), l[k]? = some el → ∃ c st, T.element s.index el = ⟨st, 0, 0, s.index, some c⟩ ∧ (good c ∨ (c = T.blank ∧ dget (col + k) s.delayed = none ∧
      ∀ x y w h o, T.exec c x y w h = .ok o → o.finished = true)))
    (h : s.addCells T dl col l = .ok s') :
    HSolid good s' ∧ CellFrame s s' ∧ s'.maxHeight ≤ max s.maxHeight (max s.rowMax 4) ∧ (∀ c, c < col → dget c s'.delayed = dget c s.delayed) ∧
      ((∀ c, col ≤ c → c < col + l.length → dget c s'.delayed = none) →
        (∀ (k : Nat) (el : RowEl σ C), l[k]? = some el → ∀ c st, T.element s.index el = ⟨st, 0, 0, s.index, some c⟩ → good c) → s'.maxHeight ≤ max s.maxHeight s.rowMax) := by
  induction l generalizing col s with
  | nil =>
    cases h
    exact ⟨hi, CellFrame.refl _, le_max_left _ _, fun _ _ => rfl, fun _ _ => le_max_left _ _⟩
  | cons el l ih =>
    simp only [TS.addCells] at h
    split at h
    · cases h
    · rename_i s1 h1
      obtain ⟨a1, a2, a3, a4, a5⟩ := hi.cell hfit hsol (by simpa using hel 0 el rfl) h1
      obtain ⟨b1, b2, b3, b4, b5⟩ := ih (col := col + 1) a1 (by
        intro k el' hk
        obtain ⟨c, st, e1, e2⟩ := hel (k + 1) el' (by simpa using hk)
        refine ⟨c, st, by rw [a2.index]; exact e1, ?_⟩
        rcases e2 with e2 | ⟨e2, e3, e4⟩
        · exact Or.inl e2
        · refine Or.inr ⟨e2, ?_, e4⟩
          rw [show col + 1 + k = col + (k + 1) by omega, a3 _ (by omega)]
          exact e3) h
      rw [a2.rowMax] at b3 b5
      refine ⟨b1, a2.trans b2, ?_, ?_, ?_⟩
      · refine le_trans b3 (max_le ?_ (le_max_right _ _))
        exact a4
      · intro c hc
        rw [b4 c (by omega), a3 c (by omega)]
      · intro hn hg
        have h0 : dget col s1.delayed = none := by
          rw [← b4 col (by omega)]
          exact hn col (le_refl _) (by simp)
        refine le_trans (b5 ?_ ?_) (max_le ?_ (le_max_right _ _))
        · intro c h1 h2
          exact hn c (by omega) (by simp only [List.length_cons]; omega)
        · intro k el' hk
          rw [a2.index]
          exact hg (k + 1) el' (by simpa using hk)
        · exact a5 h0 (hg 0 el rfl)

/-- between two rows of a run -/
structure HRun (good : σ → Prop) (s : TS σ P B C) : Prop where
  rowspan : s.rowspan = []
  late : ∀ c d, dget c s.delayed = some d → d.cols = 0 ∧ d.rows = 0 ∧ d.row = s.index ∧ ∃ x, d.content = some x ∧ good x

theorem HRun.rows [DecidableEq B] (hfit : Fits T.exec) (hsol : Solid T.exec good) (l : List (List (Option (Cell σ C)))) (hl : PlainSolid l good T.blank)
    {s s' : TS σ P B C} (hi : HRun good s) (hd : s.delayed = []) (hh : 0 ≤ s.height) (hc : s.currentHeight ≤ s.height) {cn : Bool} (h : s.addRows T l = .ok (cn, s')) :
    HRun good s' ∧ s'.height = s.height ∧ s'.currentHeight ≤ s.height + 4 ∧ (s'.delayed = [] → s'.currentHeight ≤ s.height) := by
  induction l generalizing s with
  | nil =>
    cases h
    exact ⟨hi, rfl, by linarith, fun _ => hc⟩
  | cons row l ih =>
    simp only [TS.addRows] at h
    cases h1 : s.addRow T (row.map .cell) false with
    | error e => rw [h1] at h; cases h
    | ok q =>
      obtain ⟨act, s1⟩ := q
      rw [h1] at h
      obtain ⟨hlen, s0, s2, e1, e2, e3, e4, e4', e5, e6, e7, -, g1, f1, f1', f2, f3, f4⟩ := addRow_unfold h1
      have hi0 : HSolid good s0 := ⟨by rw [e1.rowspan, hi.rowspan], e2, by rw [e1.delayed, hd]; intro c d hd; cases hd⟩
      have hrow := hl row (by simp)
      have hel : ∀ (k : Nat) (el : RowEl σ C), (row.map RowEl.cell)[k]? = some el → ∃ c st, T.element s0.index el = ⟨st, 0, 0, s0.index, some c⟩ ∧ good c := by
        intro k el hk
        rw [List.getElem?_map] at hk
        obtain ⟨el', hk', rfl⟩ := Option.map_eq_some_iff.1 hk
        rcases hrow el' (List.mem_of_getElem? hk') with ⟨c, st, rfl, hg⟩ | ⟨rfl, hg⟩
        · exact ⟨c, st, rfl, hg⟩
        · exact ⟨T.blank, T.style, rfl, hg⟩
      obtain ⟨b1, b2, b3, b4, b5⟩ := hi0.cells hfit hsol _ (fun k el hk => by
        obtain ⟨c, st, a1, a2⟩ := hel k el hk
        exact ⟨c, st, a1, Or.inl a2⟩) g1
      have hgood : ∀ (k : Nat) (el : RowEl σ C), (row.map RowEl.cell)[k]? = some el → ∀ c st, T.element s0.index el = ⟨st, 0, 0, s0.index, some c⟩ → good c := by
        intro k el hk c st h2
        obtain ⟨c', st', a1, a2⟩ := hel k el hk
        rw [a1] at h2
        cases h2
        exact a2
      have hrun : HRun good s1 := ⟨by rw [f1.rowspan]; exact b1.rowspan, by rw [f1.delayed, f1.index]; exact b1.late⟩
      have hm1 : s2.maxHeight ≤ max s0.rowMax 4 := by
        refine le_trans b3 (max_le ?_ (le_refl _))
        rw [e3]
        exact le_trans (by norm_num) (le_max_right _ _)
      have hm2 : s1.delayed = [] → s2.maxHeight ≤ max 0 s0.rowMax := by
        intro hd1
        rw [← e3]
        refine b5 ?_ hgood
        intro c _ _
        rw [← f1.delayed, hd1]
        rfl
      have hrm : s0.rowMax = s.height - s.currentHeight := e7
      have hend : act ≠ .cancel → s1.height = s.height ∧ s1.currentHeight ≤ s.height + 4 ∧ (s1.delayed = [] → s1.currentHeight ≤ s.height) := by
        intro ha
        obtain ⟨-, k1, k2, -⟩ := f4 ha
        refine ⟨by rw [k1, b2.height, e5], ?_, ?_⟩
        · rw [k2, b2.currentHeight, e6]
          have : s2.maxHeight ≤ (s.height - s.currentHeight) + 4 := le_trans hm1 (max_le (by rw [hrm]; linarith) (by linarith))
          linarith
        · intro hd1
          have := hm2 hd1
          rw [max_eq_right (by rw [hrm]; linarith), hrm] at this
          rw [k2, b2.currentHeight, e6]
          linarith
      cases act with
      | cancel =>
        simp only [Except.ok.injEq, Prod.mk.injEq] at h
        obtain ⟨-, rfl⟩ := h
        have hk : s1.height = s.height := by rw [(f3 rfl).2.2.2, b2.height, e5]
        have hk2 : s1.currentHeight = s.currentHeight := by rw [(f3 rfl).2.2.1, b2.currentHeight, e6]
        exact ⟨hrun, hk, by rw [hk2]; linarith, fun _ => by rw [hk2]; exact hc⟩
      | interrupt =>
        cases h
        obtain ⟨k1, k2, k3⟩ := hend (by simp)
        exact ⟨hrun, k1, k2, k3⟩
      | «continue» =>
        simp only at h
        obtain ⟨k1, k2, k3⟩ := hend (by simp)
        have hpend := canGoOn_pending (((f4 (by simp)).1).1 rfl)
        have hd1 : s1.delayed = [] := nil_of_dget fun c => by
          cases hd : dget c s1.delayed with
          | none => rfl
          | some d =>
            obtain ⟨q, hq⟩ := hpend c d hd
            rw [hrun.rowspan] at hq; cases hq
        have := ih (fun row hrow => hl row (by simp [hrow])) (s := { s1 with index := s1.index + 1 }) ⟨hrun.rowspan, by
          show ∀ c d, dget c s1.delayed = some d → _
          rw [hd1]; intro c d hd; cases hd⟩ hd1 (by show 0 ≤ s1.height; rw [k1]; exact hh) (by show s1.currentHeight ≤ s1.height; rw [k1]; exact k3 hd1) h
        have e : ({ s1 with index := s1.index + 1 } : TS σ P B C).height = s.height := k1
        rw [e] at this
        exact this

theorem close_height [DecidableEq B] (T : TConf σ P B C) (s : TS σ P B C) : (s.close T).currentHeight = s.currentHeight ∧ (s.close T).height = s.height := by
  have key : ∀ (l : List Nat) (s0 : TS σ P B C), (l.foldl (fun s col => s.closeCol T col) s0).currentHeight = s0.currentHeight ∧
      (l.foldl (fun s col => s.closeCol T col) s0).height = s0.height := by
    intro l
    induction l with
    | nil => intro s0; exact ⟨rfl, rfl⟩
    | cons a l ih => intro s0; exact ih (s0.closeCol T a)
  exact key (List.range T.cols) { s with topLines := [], topInt := true, yAbs := s.y - s.currentHeight }

theorem HRun.run [DecidableEq B] (hfit : Fits T.exec) (hsol : Solid T.exec good) (hl : PlainSolid T.content good T.blank)
    (hblank : good T.blank ∨ ∀ x y w h o, T.exec T.blank x y w h = .ok o → o.finished = true)
    {s s' : TS σ P B C} (hi : ∀ c d, dget c s.delayed = some d → d.cols = 0 ∧ d.rows = 0 ∧ d.row = s.index ∧ ∃ x, d.content = some x ∧ good x)
    {x y w hh : Rat} (hh4 : 4 ≤ hh) (h : s.run T x y w hh = .ok s') :
    (∀ c d, dget c s'.delayed = some d → d.cols = 0 ∧ d.rows = 0 ∧ d.row = s'.index ∧ ∃ x, d.content = some x ∧ good x) ∧
      s'.currentHeight ≤ hh + 4 ∧ (s'.delayed = [] → s'.currentHeight ≤ hh) := by
  unfold TS.run at h
  have hi0 : HRun good (s.clear T x y w hh) := ⟨rfl, hi⟩
  -- the delayed row
  have late : ∀ go s1, (s.clear T x y w hh).addLate T = .ok (go, s1) → HRun good s1 ∧ s1.height = hh ∧ s1.currentHeight ≤ hh ∧ (go = true → s1.delayed = []) := by
    intro go s1 h1
    unfold TS.addLate at h1
    split at h1
    · rename_i hd
      cases h1
      exact ⟨hi0, rfl, by show (0 : Rat) ≤ hh; linarith, fun _ => by simpa using hd⟩
    · cases h2 : (s.clear T x y w hh).addRow T ((List.range T.cols).map fun i => .late (dget i (s.clear T x y w hh).delayed)) true with
      | error e => rw [h2] at h1; cases h1
      | ok q =>
        obtain ⟨act, s2⟩ := q
        rw [h2] at h1
        obtain ⟨hlen, s0, s3, e1, e2, e3, e4, e4', e5, e6, e7, -, g1, f1, f1', f2, f3, f4⟩ := addRow_unfold h2
        have hi1 : HSolid good s0 := ⟨by rw [e1.rowspan]; rfl, e2, by rw [e1.delayed, e1.index]; exact hi⟩
        obtain ⟨b1, b2, b3, b4, b5⟩ := hi1.cells hfit hsol _ (fun k el hk => by
          rw [List.getElem?_map] at hk
          obtain ⟨i, hk', rfl⟩ := Option.map_eq_some_iff.1 hk
          have hik : i = k := by
            have hlt : k < T.cols := by simpa using (List.getElem?_eq_some_iff.1 hk').1
            rw [List.getElem?_range hlt] at hk'
            exact (Option.some.inj hk').symm
          subst hik
          rw [e1.delayed, Nat.zero_add, e1.index]
          cases hd : dget i (s.clear T x y w hh).delayed with
          | none => exact ⟨T.blank, T.style, rfl, hblank.imp id fun hb => ⟨rfl, rfl, hb⟩⟩
          | some d =>
            obtain ⟨d1, d2, d3, c, d4, d5⟩ := hi i d hd
            refine ⟨c, d.style, ?_, Or.inl d5⟩
            have : (s.clear T x y w hh).index = s.index := rfl
            rw [this, ← d3, ← d4]
            simp only [TConf.element, d4]
            cases d
            simp_all) g1
        have hrun : HRun good s2 := ⟨by rw [f1.rowspan]; exact b1.rowspan, by rw [f1.delayed, f1.index]; exact b1.late⟩
        have hc0 : (s.clear T x y w hh).currentHeight = 0 := rfl
        have hh0 : (s.clear T x y w hh).height = hh := rfl
        have hrm : s0.rowMax = hh := by rw [e7, hc0, hh0]; linarith
        have hm : s3.maxHeight ≤ hh := by
          refine le_trans b3 (max_le ?_ (max_le (by rw [hrm]) hh4))
          rw [e3]; linarith
        have hhs : act ≠ .cancel → s2.height = hh ∧ s2.currentHeight ≤ hh := by
          intro ha
          obtain ⟨-, k1, k2, -⟩ := f4 ha
          refine ⟨by rw [k1, b2.height, e5, hh0], ?_⟩
          rw [k2, b2.currentHeight, e6, hc0]
          linarith
        cases act with
        | cancel =>
          cases h1
          refine ⟨hrun, by rw [(f3 rfl).2.2.2, b2.height, e5, hh0], ?_, by simp⟩
          rw [(f3 rfl).2.2.1, b2.currentHeight, e6, hc0]
          linarith
        | interrupt =>
          cases h1
          exact ⟨hrun, (hhs (by simp)).1, (hhs (by simp)).2, by simp⟩
        | «continue» =>
          have hpend := canGoOn_pending (((f4 (by simp)).1).1 rfl)
          have hd1 : s2.delayed = [] := nil_of_dget fun c => by
            cases hd : dget c s2.delayed with
            | none => rfl
            | some d =>
              obtain ⟨q, hq⟩ := hpend c d hd
              rw [hrun.rowspan] at hq; cases hq
          cases h1
          refine ⟨⟨hrun.rowspan, ?_⟩, (hhs (by simp)).1, (hhs (by simp)).2, fun _ => hd1⟩
          show ∀ c d, dget c s2.delayed = some d → _
          rw [hd1]; intro c d hd; cases hd
  have closed : ∀ s1 : TS σ P B C, HRun good s1 → s1.currentHeight ≤ hh + 4 → (s1.delayed = [] → s1.currentHeight ≤ hh) →
      (∀ c d, dget c (s1.close T).delayed = some d → d.cols = 0 ∧ d.rows = 0 ∧ d.row = (s1.close T).index ∧ ∃ x, d.content = some x ∧ good x) ∧
      (s1.close T).currentHeight ≤ hh + 4 ∧ ((s1.close T).delayed = [] → (s1.close T).currentHeight ≤ hh) := by
    intro s1 a1 a2 a3
    have hs := (close_same T s1).1
    rw [hs.delayed, hs.index, (close_height T s1).1]
    exact ⟨a1.late, a2, a3⟩
  cases h1 : (s.clear T x y w hh).addLate T with
  | error e => rw [h1] at h; cases h
  | ok q =>
    obtain ⟨go, s1⟩ := q
    rw [h1] at h
    obtain ⟨a1, a2, a3, a4⟩ := late go s1 h1
    cases go with
    | false =>
      cases h
      exact closed s1 a1 (by linarith) (fun _ => a3)
    | true =>
      simp only at h
      cases h2 : s1.addRows T (T.content.drop s1.index) with
      | error e => rw [h2] at h; cases h
      | ok q =>
        obtain ⟨cn, s2⟩ := q
        rw [h2] at h
        obtain ⟨b1, b2, b3, b4⟩ := a1.rows hfit hsol _ (fun row hrow => hl row (List.mem_of_mem_drop hrow)) (a4 rfl) (by rw [a2]; linarith) (by rw [a2]; exact a3) h2
        rw [a2] at b3 b4
        cases cn with
        | true => cases h; exact ⟨b1.late, b3, b4⟩
        | false => cases h; exact closed s2 b1 b3 b4

/-- C31 (partial): a table of plain cells whose contents keep to their height and are not empty stays within its rectangle, or exceeds it by at most the
4 points given to a row in which some cell found no room; in that case a cell is left for the next rectangle. Partial because of the plain cells, the
contents, which must not be empty, and the 4 points (`C31_overflow_false`, `C31_empty_rows_false`). -/
theorem C31_height_partial [DecidableEq B] (T : TConf σ P B C) (good : σ → Prop) (hfit : Fits T.exec) (hsol : Solid T.exec good) (hl : PlainSolid T.content good T.blank)
    (hblank : good T.blank ∨ ∀ x y w h o, T.exec T.blank x y w h = .ok o → o.finished = true)
    (rects : List (Rat × Rat × Rat × Rat)) (hrects : ∀ r ∈ rects, 4 ≤ r.2.2.2)
    (x0 y0 w0 h0 : Rat) (ps : List P) (s s' : TS σ P B C) (hr : (TS.new x0 y0 w0 h0).runs T rects = .ok (ps, s))
    (x y w h : Rat) (hh : 4 ≤ h) (hlast : s.run T x y w h = .ok s') :
    s'.currentHeight ≤ h + 4 ∧ (s'.delayed = [] → s'.currentHeight ≤ h) := by
  have key : ∀ (rects : List (Rat × Rat × Rat × Rat)) (_ : ∀ r ∈ rects, 4 ≤ r.2.2.2) (s0 s : TS σ P B C) (ps : List P)
      (_ : ∀ c d, dget c s0.delayed = some d → d.cols = 0 ∧ d.rows = 0 ∧ d.row = s0.index ∧ ∃ x, d.content = some x ∧ good x)
      (_ : s0.runs T rects = .ok (ps, s)),
      (∀ c d, dget c s.delayed = some d → d.cols = 0 ∧ d.rows = 0 ∧ d.row = s.index ∧ ∃ x, d.content = some x ∧ good x) := by
    intro rects
    induction rects with
    | nil => intro _ s0 s ps hi h; cases h; exact hi
    | cons r rects ih =>
      obtain ⟨x, y, w, h⟩ := r
      intro hr s0 s ps hi hrun
      simp only [TS.runs] at hrun
      cases h1 : s0.run T x y w h with
      | error e => rw [h1] at hrun; cases hrun
      | ok s1 =>
        rw [h1] at hrun
        simp only at hrun
        cases h2 : s1.runs T rects with
        | error e => rw [h2] at hrun; cases hrun
        | ok q =>
          obtain ⟨ps2, s2⟩ := q
          rw [h2] at hrun
          simp only [Except.ok.injEq, Prod.mk.injEq] at hrun
          obtain ⟨-, rfl⟩ := hrun
          exact ih (fun r hr' => hr r (by simp [hr'])) s1 s2 ps2 (HRun.run hfit hsol hl hblank hi (hr (x, y, w, h) (by simp)) h1).1 h2
  exact (HRun.run hfit hsol hl hblank (key rects hrects _ s ps (by intro c d hd; cases hd) hr) hh hlast).2

end

/-- the height after the last of the given rectangles, and whether the table is finished -/
def heightAfter (content : List (List (Option (Cell Str Unit)))) (cols : Nat) (heights : List Rat) : Except PyErr (Rat × Bool) :=
  ((TS.new 0 0 100 100).runs (cellsTable content cols) (heights.map fun h => (0, h, 100, h))).map fun r => (r.2.currentHeight, r.2.finished)

theorem lines_fit : Fits linesExec := by
  intro c x y w h o ho hpos
  cases ho
  have h1 : ((c.take (h / 10).floor.toNat).length : Rat) ≤ ((h / 10).floor.toNat : Rat) := by
    exact_mod_cast List.length_take_le _ _
  by_cases hn : (h / 10).floor ≤ 0
  · have : (h / 10).floor.toNat = 0 := Int.toNat_eq_zero.2 hn
    simp [this] at hpos
  · have h2 : (((h / 10).floor.toNat : Int) : Rat) = ((h / 10).floor : Rat) := by
      rw [Int.toNat_of_nonneg (by omega)]
    have h3 : ((h / 10).floor : Rat) ≤ h / 10 := Rat.floor_le _
    have h4 : (((h / 10).floor.toNat : Nat) : Rat) ≤ h / 10 := by
      have : (((h / 10).floor.toNat : Nat) : Rat) = (((h / 10).floor.toNat : Int) : Rat) := by norm_cast
      rw [this, h2]; exact h3
    show 10 * ((c.take (h / 10).floor.toNat).length : Rat) ≤ h
    linarith

theorem lines_solid : Solid linesExec (fun c => c ≠ []) := by
  refine ⟨?_, ?_⟩
  · intro c x y w h o hc ho hf
    cases ho
    have hd : c.drop (h / 10).floor.toNat = [] := by simpa using hf
    have ht : c.take (h / 10).floor.toNat = c := by
      have := List.take_append_drop (h / 10).floor.toNat c
      rwa [hd, List.append_nil] at this
    have : 0 < c.length := List.length_pos_iff.2 hc
    show 0 < 10 * ((c.take (h / 10).floor.toNat).length : Rat)
    rw [ht]
    have : (0 : Rat) < (c.length : Rat) := by exact_mod_cast this
    linarith
  · intro c x y w h o hc ho hf
    cases ho
    intro h0
    have h0' : c.drop (h / 10).floor.toNat = [] := h0
    simp [h0'] at hf

/-- two cells in a row, broken over rectangles of 25 and 30 points -/
example : heightAfter [[plainCell c!"abcd", plainCell c!"xy"], [plainCell c!"e", plainCell c!"z"]] 2 [25] = .ok (23, false) ∧
    heightAfter [[plainCell c!"abcd", plainCell c!"xy"], [plainCell c!"e", plainCell c!"z"]] 2 [25, 50] = .ok (36, true) := by
  decide +kernel

/-- the theorem applies to such tables: all the runs stay within 4 points of their rectangle -/
example (h : Rat) (hh : 4 ≤ h) (s' : TS Str Str Unit Unit)
    (hs : (TS.new 0 0 100 100).run (cellsTable [[plainCell c!"abcd", plainCell c!"xy"], [plainCell c!"e", plainCell c!"z"]] 2) 0 h 100 h = .ok s') :
    s'.currentHeight ≤ h + 4 ∧ (s'.delayed = [] → s'.currentHeight ≤ h) := by
  refine C31_height_partial _ (fun c => c ≠ []) lines_fit lines_solid ?_ ?_ [] (by simp) 0 0 100 100 [] _ s' rfl 0 h 100 h hh hs
  · intro row hrow el hel
    simp only [cellsTable, List.mem_cons, List.not_mem_nil, or_false] at hrow
    rcases hrow with rfl | rfl
    all_goals
      simp only [List.mem_cons, List.not_mem_nil, or_false] at hel
      rcases hel with rfl | rfl
      all_goals exact Or.inl ⟨_, _, rfl, by decide⟩
  · refine Or.inr fun x y w h o ho => ?_
    cases ho
    simp [cellsTable]

/-- C31 fails if there is no room for a row after others: it still takes 4 points -/
theorem C31_overflow_false :
    heightAfter [[plainCell c!"ab"], [plainCell c!"cd"]] 1 [25] = .ok (27, false) := by
  decide +kernel

/-- C31 fails for empty cells, each row of which takes 4 points however little room is left -/
theorem C31_empty_rows_false :
    heightAfter (List.replicate 100 [plainCell []]) 1 [30, 30] = .ok (400, true) := by
  decide +kernel

end Verif
