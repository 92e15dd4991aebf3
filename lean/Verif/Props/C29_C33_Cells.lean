import Verif.Spec.Tables
import Verif.Lemmas.TableRun
import Mathlib.Tactic.Linarith
/-! C29, C33: a table shows every cell once, whatever the rectangles. -/
namespace Verif
open Spec

variable {σ P B C A : Type}

/-- margins and borders that do not make cells overlap -/
structure CellStylesOk (T : TConf σ P B C) : Prop where
  border : ∀ i j v, 0 ≤ (T.border i j v).width
  style : 0 ≤ T.style.top ∧ 0 ≤ T.style.bottom
  cells : ∀ i j c, cellAt T.content i j = some c → 0 ≤ c.style.top ∧ 0 ≤ c.style.bottom

/-- what is still to be shown of a position when `N j` rows of column `j` have been started -/
def leftOf (T : TConf σ P B C) (rest : σ → List A) (N : Nat → Nat) (s : TS σ P B C) (i j : Nat) : List A :=
  if i < N j then match dget j s.delayed with
    | some d => if d.row = i then restOf rest d.content else []
    | none => []
  else cellAtoms rest T.content i j

/-- the rows below a delayed cell that it spans are free -/
def Delayed.Clear (T : TConf σ P B C) (c : Nat) (d : Delayed σ C) : Prop :=
  ∀ i j, d.row < i → i ≤ d.row + d.rows → c ≤ j → j ≤ c + d.cols → cellAt T.content i j = none

structure CShown (T : TConf σ P B C) (rest : σ → List A) (N : Nat → Nat) (s : TS σ P B C) (t : List ((Nat × Nat) × A)) : Prop where
  eq : ∀ i j, cellAtoms rest T.content i j = labelled t i j ++ leftOf T rest N s i j
  late : ∀ c d, dget c s.delayed = some d → d.row < N c ∧ d.Clear T c

theorem labelled_append (t u : List ((Nat × Nat) × A)) (i j : Nat) : labelled (t ++ u) i j = labelled t i j ++ labelled u i j := by
  simp [labelled]

/-- atoms all labelled with one position -/
def labelAll (p : Nat × Nat) (l : List A) : List ((Nat × Nat) × A) := l.map fun a => (p, a)

theorem labelled_all (p : Nat × Nat) (l : List A) (i j : Nat) : labelled (labelAll p l) i j = if p = (i, j) then l else [] := by
  unfold labelled labelAll
  by_cases h : p = (i, j)
  · rw [List.filter_eq_self.2 (by simp [h])]
    simp [h, List.map_map, Function.comp_def]
  · rw [List.filter_eq_nil_iff.2 (by simp [h])]
    simp [h]

theorem labelAll_snd (p : Nat × Nat) (l : List A) : (labelAll p l).map Prod.snd = l := by
  simp [labelAll, List.map_map, Function.comp_def]

section
variable {T : TConf σ P B C} {atoms : P → List A} {rest : σ → List A}

/-- the step of a cell that is run, as if it had been delayed before -/
theorem CShown.started (H : Honest T.exec atoms rest) {N : Nat → Nat} {s s' : TS σ P B C} {t : List ((Nat × Nat) × A)} {col : Nat}
    {d : Delayed σ C} (h : Started T s s' col d) (hi : CShown T rest N { s with delayed := dset col d s.delayed } t) :
    ∃ out : List A, s'.parts.flatMap atoms = s.parts.flatMap atoms ++ out ∧ CShown T rest N s' (t ++ labelAll (d.row, col) out) ∧
      (∀ c, c ≠ col → dget c s'.delayed = dget c s.delayed) ∧
      (∀ d', dget col s'.delayed = some d' → d'.row = d.row ∧ d'.rows = d.rows) ∧
      (out ≠ [] → d.rowsLeft s.index ≤ 0 → 0 ≤ (T.border s.index col false).width →
        0 ≤ (T.border (s.index + d.rowsLeft s.index + 1) col false).width → 0 ≤ d.style.top → 0 ≤ d.style.bottom → 0 < s'.maxHeight) := by
  obtain ⟨hh, b, hf, -, -, hpad, -, hmax⟩ := h.content
  cases hf with
  | empty hc hp hd =>
    refine ⟨[], by simp [hp], ?_, ?_, ?_, by simp⟩
    · have : t ++ labelAll (d.row, col) ([] : List A) = t := by simp [labelAll]
      rw [this]
      refine ⟨fun i j => ?_, fun c d' hd' => ?_⟩
      · rw [hi.eq i j]; simp only [leftOf, hd]
      · exact hi.late c d' (by simpa [hd] using hd')
    · intro c hne; rw [hd, dget_dset_ne (Ne.symm hne)]
    · intro d' hd'; rw [hd] at hd'; simp at hd'; subst hd'; exact ⟨rfl, rfl⟩
  | @run c o hc he hp hd =>
    have hs := H.step _ _ _ _ _ _ he
    have hget : ∀ c', c' ≠ col → dget c' s'.delayed = dget c' s.delayed := by
      intro c' hne
      rw [hd]
      split
      · rw [dget_ddrop, if_neg hne]
      · rw [dget_dset_ne (Ne.symm hne)]
    have hself : ∀ d', dget col s'.delayed = some d' → d' = { d with content := some o.next } ∧ o.finished = false := by
      intro d' hd'
      rw [hd] at hd'
      cases hfin : o.finished with
      | true => rw [hfin] at hd'; simp [dget_ddrop] at hd'
      | false => rw [hfin] at hd'; simp at hd'; exact ⟨hd'.symm, rfl⟩
    refine ⟨o.parts.flatMap atoms, by rw [hp, List.flatMap_append], ⟨fun i j => ?_, fun c' d' hd' => ?_⟩, hget, ?_, ?_⟩
    · rw [labelled_append, labelled_all, hi.eq i j, List.append_assoc]
      congr 1
      by_cases hj : j = col
      · subst hj
        by_cases hr : d.row = i
        · subst hr
          have hlt : d.row < N j := (hi.late j d (by simp)).1
          rw [if_pos rfl]
          unfold leftOf
          rw [if_pos hlt, if_pos hlt]
          simp only [dget_dset_self, if_true, restOf, hc]
          rw [hd]
          cases hfin : o.finished with
          | true =>
            simp only [if_true, dget_ddrop]
            rw [← hs, H.done _ _ _ _ _ _ he hfin]
          | false => simp [hs]
        · rw [if_neg (by simp [hr]), List.nil_append]
          unfold leftOf
          by_cases hn : i < N j
          · rw [if_pos hn, if_pos hn]
            simp only [dget_dset_self, if_neg hr]
            cases hg : dget j s'.delayed with
            | none => rfl
            | some d' => simp [(hself d' hg).1, hr]
          · rw [if_neg hn, if_neg hn]
      · rw [if_neg (by simp; intro _ h; exact hj h.symm), List.nil_append]
        unfold leftOf
        rw [hget j hj]
        simp only [dget_dset_ne (Ne.symm hj)]
    · by_cases hj : c' = col
      · subst hj
        have := (hself d' hd').1
        subst this
        have := hi.late c' d (by simp)
        exact ⟨this.1, this.2⟩
      · rw [hget c' hj] at hd'
        exact hi.late c' d' (by simp only [dget_dset_ne (Ne.symm hj)]; exact hd')
    · intro d' hd'
      have := (hself d' hd').1
      subst this
      exact ⟨rfl, rfl⟩
    · intro hne hr b1 b2 b3 b4
      have hpos : 0 < o.height := by
        by_contra hcon
        exact hne (H.zero _ _ _ _ _ _ he (not_lt.1 hcon))
      rw [(hmax (not_lt.2 hr)).2]
      apply lt_of_lt_of_le _ (le_max_left _ _)
      unfold cellHeight
      rw [if_pos hpos, hpad]
      linarith

/-- one more row of column `c` is started -/
def upTo (N : Nat → Nat) (c n : Nat) : Nat → Nat := fun j => if j = c then n else N j

/-- spans seen from column `col` of row `r` -/
structure CSpans (T : TConf σ P B C) (r col : Nat) (s : TS σ P B C) : Prop where
  lt : ∀ c q, dget c s.rowspan = some q → c < T.cols
  rows : ∀ c k m, dget c s.rowspan = some (k, m) → 1 ≤ k ∧
    ∀ i j, (if c < col then r + 1 else r) ≤ i → i < (if c < col then r + 1 else r) + k → c ≤ j → j ≤ c + m → cellAt T.content i j = none

theorem CSpans.skip {r col : Nat} {s s' : TS σ P B C} (hi : CSpans T r col s) (h : Skipped s s' col) (hcol : col < T.cols) :
    CSpans T r (col + 1) s' := by
  refine ⟨fun c q hq => ?_, fun c k m hk => ?_⟩
  · by_cases hc : c = col
    · exact hc ▸ hcol
    · rw [h.others c hc] at hq; exact hi.lt c q hq
  by_cases hc : c = col
  · subst hc
    rw [if_pos (by omega)]
    cases hr : dget c s.rowspan with
    | none => rw [(h.none hr).1, hr] at hk; cases hk
    | some q =>
      obtain ⟨k', m'⟩ := q
      have old := hi.rows c k' m' hr
      rw [if_neg (by omega)] at old
      by_cases h1 : k' = 1
      · subst h1
        rw [(h.last m' hr).1] at hk; cases hk
      · rw [(h.more k' m' hr h1).1] at hk
        cases hk
        refine ⟨by omega, fun i j a1 a2 a3 a4 => old.2 i j (by omega) (by omega) a3 a4⟩
  · rw [h.others c hc] at hk
    have old := hi.rows c k m hk
    have : (if c < col + 1 then r + 1 else r) = if c < col then r + 1 else r := by split <;> split <;> omega
    rw [this]
    exact old

theorem CSpans.start {r col : Nat} {s s' : TS σ P B C} {d : Delayed σ C} (hi : CSpans T r col s) (h : Started T s s' col d) (hr : s.index = r)
    (hrow : d.row ≤ r) (hnone : dget col s.rowspan = none) (hcl : d.Clear T col) (hcol : col < T.cols) : CSpans T r (col + 1) s' := by
  refine ⟨fun c q hq => ?_, fun c k m hk => ?_⟩
  · by_cases hc : c = col
    · exact hc ▸ hcol
    · refine hi.lt c q ?_
      rw [h.rowspan] at hq
      split at hq
      · rwa [dget_dset_ne (Ne.symm hc)] at hq
      · exact hq
  by_cases hc : c = col
  · subst hc
    rw [if_pos (by omega)]
    rw [h.rowspan] at hk
    split at hk
    · rename_i hpos
      rw [dget_dset_self] at hk
      cases hk
      unfold Delayed.rowsLeft at hpos ⊢
      refine ⟨by omega, fun i j a1 a2 a3 a4 => hcl i j (by omega) (by omega) a3 a4⟩
    · rw [hnone] at hk; cases hk
  · have hk' : dget c s.rowspan = some (k, m) := by
      rw [h.rowspan] at hk
      split at hk
      · rwa [dget_dset_ne (Ne.symm hc)] at hk
      · exact hk
    have old := hi.rows c k m hk'
    have : (if c < col + 1 then r + 1 else r) = if c < col then r + 1 else r := by split <;> split <;> omega
    rw [this]
    exact old

/-- the invariant before column `col` of row `r` of the content -/
structure NInv (T : TConf σ P B C) (rest : σ → List A) (r col : Nat) (s : TS σ P B C) (t : List ((Nat × Nat) × A)) : Prop where
  index : s.index = r
  cells : CShown T rest (fun j => if j < col then r + 1 else r) s t
  spans : CSpans T r col s
  free : ∀ j, col ≤ j → j < col + s.colspan → cellAt T.content r j = none
  pending : ∀ c d, col ≤ c → dget c s.delayed = some d → ∃ q, dget c s.rowspan = some q

theorem upTo_row (r col : Nat) : upTo (fun j => if j < col then r + 1 else r) col (r + 1) = fun j => if j < col + 1 then r + 1 else r := by
  funext j
  unfold upTo
  by_cases h : j = col
  · subst h; simp
  · rw [if_neg h]
    have : (j < col + 1) = (j < col) := by apply propext; omega
    simp only [this]

theorem NInv.cell [DecidableEq B] (H : Honest T.exec atoms rest) (hb : rest T.blank = []) (hok : SpansOk T.content) (hst : CellStylesOk T)
    {r col : Nat} {s s' : TS σ P B C} {t : List ((Nat × Nat) × A)} (hi : NInv T rest r col s t) {el : Option (Cell σ C)}
    (hel : (T.content[r]?.bind (·[col]?)) = some el) (hcol : col < T.cols) (h : s.addCell T col (.cell el) false = .ok s') :
    ∃ out : List A, s'.parts.flatMap atoms = s.parts.flatMap atoms ++ out ∧ NInv T rest r (col + 1) s' (t ++ labelAll (r, col) out) ∧
      CellFrame s s' ∧ s.maxHeight ≤ s'.maxHeight ∧ (out ≠ [] → (∀ c, el = some c → c.rows = 0) → 0 < s'.maxHeight) ∧
      ((∀ c, el = some c → c.rows = 0) → s.rowspan = [] → (∀ c d, dget c s.delayed = some d → d.row = r ∧ d.rows = 0) →
        s'.rowspan = [] ∧ (∀ c d, dget c s'.delayed = some d → d.row = r ∧ d.rows = 0)) := by
  have hcell : cellAt T.content r col = el := by unfold cellAt; rw [hel]; rfl
  rcases addCell_cases h with ⟨hsp, hs⟩ | ⟨hsp, hs⟩
  · -- a merged position
    have hfree : cellAt T.content r col = none := by
      unfold TS.spans at hsp
      cases hr : dget col s.rowspan with
      | none =>
        rw [hr] at hsp
        exact hi.free col (le_refl _) (by simp at hsp; omega)
      | some q =>
        obtain ⟨k, m⟩ := q
        have := hi.spans.rows col k m hr
        rw [if_neg (by omega)] at this
        exact this.2 r col (le_refl _) (by omega) (le_refl _) (by omega)
    have hmax : s.maxHeight ≤ s'.maxHeight := by
      cases hr : dget col s.rowspan with
      | none => rw [(hs.none hr).2.2]
      | some q =>
        obtain ⟨k, m⟩ := q
        by_cases h1 : k = 1
        · subst h1; rw [(hs.last m hr).2.2]; exact le_max_right _ _
        · rw [(hs.more k m hr h1).2.2]
    refine ⟨[], by simp [hs.parts], ⟨hs.frame.index.trans hi.index, ?_, hi.spans.skip hs hcol, ?_, ?_⟩, hs.frame, hmax, by simp, ?_⟩
    · have : t ++ labelAll (r, col) ([] : List A) = t := by simp [labelAll]
      rw [this, ← upTo_row]
      refine ⟨fun i j => ?_, fun c d hd => ?_⟩
      · rw [hi.cells.eq i j]
        congr 1
        unfold leftOf upTo
        rw [hs.delayed]
        by_cases hj : j = col
        · subst hj
          simp only [lt_self_iff_false, if_false, if_true]
          by_cases h1 : i < r
          · rw [if_pos h1, if_pos (by omega)]
          · rw [if_neg h1]
            by_cases h2 : i < r + 1
            · have : i = r := by omega
              subst this
              rw [if_pos h2]
              have e1 : cellAtoms rest T.content i j = [] := by unfold cellAtoms; rw [hfree]; rfl
              rw [e1]
              cases hg : dget j s.delayed with
              | none => rfl
              | some d =>
                have := (hi.cells.late j d hg).1
                simp only [lt_self_iff_false, if_false] at this
                simp only
                rw [if_neg (by omega)]
            · rw [if_neg h2]
        · rw [if_neg hj]
      · rw [hs.delayed] at hd
        have := hi.cells.late c d hd
        refine ⟨?_, this.2⟩
        unfold upTo
        split
        · rename_i hc; subst hc; have := this.1; simp only [lt_self_iff_false, if_false] at this; omega
        · exact this.1
    · intro j h1 h2
      cases hr : dget col s.rowspan with
      | none =>
        have := (hs.none hr).2.1
        exact hi.free j (by omega) (by omega)
      | some q =>
        obtain ⟨k, m⟩ := q
        have hcs : s'.colspan = m := by
          by_cases h1 : k = 1
          · subst h1; exact (hs.last m hr).2.1
          · exact (hs.more k m hr h1).2.1
        have := hi.spans.rows col k m hr
        rw [if_neg (lt_irrefl _)] at this
        exact this.2 r j (le_refl _) (by omega) (by omega) (by omega)
    · intro c d hc hd
      rw [hs.delayed] at hd
      rw [hs.others c (by omega)]
      exact hi.pending c d (by omega) hd
    · intro _ hrs hdl
      rw [hs.delayed]
      refine ⟨?_, hdl⟩
      rw [(hs.none (by rw [hrs]; rfl)).1, hrs]
  · -- a cell
    have hrn : dget col s.rowspan = none := by
      unfold TS.spans at hsp
      cases hr : dget col s.rowspan with
      | none => rfl
      | some q => rw [hr] at hsp; simp at hsp
    have hdn : dget col s.delayed = none := by
      cases hd : dget col s.delayed with
      | none => rfl
      | some d =>
        obtain ⟨q, hq⟩ := hi.pending col d (le_refl _) hd
        rw [hrn] at hq; cases hq
    rw [hi.index] at hs
    generalize hd : T.element r (.cell el) = d at hs
    have hrow : d.row = r := by rw [← hd]; cases el <;> rfl
    have hrest : restOf rest d.content = cellAtoms rest T.content r col := by
      unfold cellAtoms
      rw [hcell, ← hd]
      cases el with
      | none => simp [TConf.element, restOf, hb]
      | some c => simp [TConf.element]
    have hclear : d.Clear T col := by
      intro i j h1 h2 h3 h4
      cases el with
      | none =>
        have : d.rows = 0 := by rw [← hd]; rfl
        omega
      | some c =>
        have e1 : d.rows = c.rows := by rw [← hd]; rfl
        have e2 : d.cols = c.cols := by rw [← hd]; rfl
        exact hok r col c hcell i j (by omega) (by omega) h3 (by omega) (by simp; omega)
    have hbase : CShown T rest (fun j => if j < col + 1 then r + 1 else r) { s with delayed := dset col d s.delayed } t := by
      rw [← upTo_row]
      refine ⟨fun i j => ?_, fun c d' hd' => ?_⟩
      · rw [hi.cells.eq i j]
        congr 1
        unfold leftOf upTo
        by_cases hj : j = col
        · subst hj
          simp only [lt_self_iff_false, if_false, if_true]
          simp only [hdn, dget_dset_self]
          by_cases h1 : i < r
          · rw [if_pos h1, if_pos (by omega), if_neg (by omega)]
          · rw [if_neg h1]
            by_cases h2 : i < r + 1
            · have : i = r := by omega
              subst this
              rw [if_pos h2, if_pos hrow, hrest]
            · rw [if_neg h2]
        · simp only [if_neg hj, dget_dset_ne (Ne.symm hj)]
      · simp only [dget_dset] at hd'
        split at hd'
        · rename_i hc
          cases hd'
          subst hc
          refine ⟨?_, hclear⟩
          unfold upTo
          rw [if_pos rfl, hrow]
          omega
        · rename_i hc
          have := hi.cells.late c d' hd'
          refine ⟨?_, this.2⟩
          unfold upTo
          rw [if_neg hc]
          exact this.1
    obtain ⟨out, o1, o2, o3, o4, o5⟩ := CShown.started H hs hbase
    rw [hrow] at o2
    have hrl : d.rowsLeft s.index = d.rows := by unfold Delayed.rowsLeft; rw [hi.index, hrow]; omega
    have hmono : s.maxHeight ≤ s'.maxHeight := by
      obtain ⟨hh, b, -, -, -, -, g1, g2⟩ := hs.content
      by_cases hp : d.rowsLeft s.index > 0
      · rw [(g1 hp).2]; exact le_max_right _ _
      · rw [(g2 hp).2]; exact le_max_right _ _
    refine ⟨out, o1, ⟨hs.frame.index.trans hi.index, o2, hi.spans.start hs hi.index (by omega) hrn hclear hcol, ?_, ?_⟩, hs.frame, hmono, ?_, ?_⟩
    · intro j h1 h2
      rw [hs.colspan] at h2
      cases el with
      | none =>
        have : d.cols = 0 := by rw [← hd]; rfl
        omega
      | some c =>
        have e2 : d.cols = c.cols := by rw [← hd]; rfl
        exact hok r col c hcell r j (le_refl _) (by omega) (by omega) (by omega) (by simp; omega)
    · intro c d' hc hd'
      rw [o3 c (by omega)] at hd'
      obtain ⟨q, hq⟩ := hi.pending c d' (by omega) hd'
      refine ⟨q, ?_⟩
      rw [hs.rowspan]
      split
      · rw [dget_dset_ne (by omega)]; exact hq
      · exact hq
    · intro hne hp
      have hrows : d.rows = 0 := by
        cases el with
        | none => rw [← hd]; rfl
        | some c => rw [← hd]; exact hp c rfl
      have hstyle : 0 ≤ d.style.top ∧ 0 ≤ d.style.bottom := by
        cases el with
        | none => rw [← hd]; exact hst.style
        | some c => rw [← hd]; exact hst.cells r col c hcell
      exact o5 hne (by rw [hrl, hrows]; simp) (hst.border _ _ _) (hst.border _ _ _) hstyle.1 hstyle.2
    · intro hp hrs hdl
      have hrows : d.rows = 0 := by
        cases el with
        | none => rw [← hd]; rfl
        | some c => rw [← hd]; exact hp c rfl
      refine ⟨?_, fun c d' hd' => ?_⟩
      · rw [hs.rowspan, if_neg (by rw [hrl, hrows]; simp), hrs]
      · by_cases hc : c = col
        · subst hc
          have := o4 d' hd'
          exact ⟨this.1.trans hrow, this.2.trans hrows⟩
        · rw [o3 c hc] at hd'
          exact hdl c d' hd'

/-! ### Rows -/

theorem NInv.cells_run [DecidableEq B] (H : Honest T.exec atoms rest) (hb : rest T.blank = []) (hok : SpansOk T.content) (hst : CellStylesOk T)
    {r : Nat} (l : List (Option (Cell σ C))) {col : Nat} {s s' : TS σ P B C} {t : List ((Nat × Nat) × A)} (hi : NInv T rest r col s t)
    (hl : ∀ k, k < l.length → T.content[r]?.bind (·[col + k]?) = l[k]?) (hcol : col + l.length ≤ T.cols)
    (h : s.addCells T false col (l.map .cell) = .ok s') :
    ∃ u : List ((Nat × Nat) × A), s'.parts.flatMap atoms = s.parts.flatMap atoms ++ u.map Prod.snd ∧
      NInv T rest r (col + l.length) s' (t ++ u) ∧ CellFrame s s' ∧ s.maxHeight ≤ s'.maxHeight ∧ (∀ e ∈ u, e.1.1 = r) ∧
      (u ≠ [] → (∀ c, some c ∈ l → c.rows = 0) → 0 < s'.maxHeight) ∧
      ((∀ c, some c ∈ l → c.rows = 0) → s.rowspan = [] → (∀ c d, dget c s.delayed = some d → d.row = r ∧ d.rows = 0) →
        s'.rowspan = [] ∧ (∀ c d, dget c s'.delayed = some d → d.row = r ∧ d.rows = 0)) := by
  induction l generalizing col s t with
  | nil =>
    simp only [List.map_nil, TS.addCells] at h
    cases h
    exact ⟨[], by simp, by simpa using hi, CellFrame.refl _, le_refl _, by simp, by simp, fun _ a b => ⟨a, b⟩⟩
  | cons el l ih =>
    simp only [List.map_cons, TS.addCells] at h
    simp only [List.length_cons] at hcol
    cases h1 : s.addCell T col (.cell el) false with
    | error e => rw [h1] at h; cases h
    | ok s1 =>
      rw [h1] at h
      have hel : T.content[r]?.bind (·[col]?) = some el := by simpa using hl 0 (by simp)
      obtain ⟨out, a1, a2, a3, a4, a5, a6⟩ := hi.cell H hb hok hst hel (by omega) h1
      obtain ⟨u, b1, b2, b3, b4, b5, b6, b7⟩ := ih a2 (fun k hk => by
        have := hl (k + 1) (by simp only [List.length_cons]; omega)
        rw [show col + 1 + k = col + (k + 1) by omega, this]; rfl) (by omega) h
      refine ⟨labelAll (r, col) out ++ u, ?_, ?_, a3.trans b3, le_trans a4 b4, ?_, ?_, ?_⟩
      · rw [b1, a1, List.map_append, labelAll_snd, List.append_assoc]
      · rw [← List.append_assoc, List.length_cons, show col + (l.length + 1) = col + 1 + l.length by omega]
        exact b2
      · intro e he
        rcases List.mem_append.1 he with he | he
        · simp only [labelAll, List.mem_map] at he
          obtain ⟨a, -, rfl⟩ := he
          rfl
        · exact b5 e he
      · intro hne hp
        by_cases hu : u = []
        · have : out ≠ [] := by rintro rfl; simp [hu, labelAll] at hne
          exact lt_of_lt_of_le (a5 this fun c hc => hp c (by simp [hc])) b4
        · exact b6 hu fun c hc => hp c (by simp [hc])
      · intro hp hr hd
        obtain ⟨c1, c2⟩ := a6 (fun c hc => hp c (by simp [hc])) hr hd
        exact b7 (fun c hc => hp c (by simp [hc])) c1 c2

/-- the invariant before row `r` -/
structure RowInv (T : TConf σ P B C) (rest : σ → List A) (r : Nat) (s : TS σ P B C) (t : List ((Nat × Nat) × A)) : Prop where
  index : s.index = r
  cells : CShown T rest (fun _ => r) s t
  spans : CSpans T r 0 s
  pending : ∀ c d, dget c s.delayed = some d → ∃ q, dget c s.rowspan = some q

/-- columns that are not there do not matter -/
theorem CShown.allCols {r : Nat} {N : Nat → Nat} {s : TS σ P B C} {t : List ((Nat × Nat) × A)} (hi : CShown T rest N s t)
    (hN : ∀ j, N j = r + 1 ∨ (N j = r ∧ cellAt T.content r j = none)) : CShown T rest (fun _ => r + 1) s t := by
  refine ⟨fun i j => ?_, fun c d hd => ?_⟩
  · rw [hi.eq i j]
    congr 1
    unfold leftOf
    beta_reduce
    rcases hN j with h | ⟨h, hn⟩
    · rw [h]
    · rw [h]
      by_cases h1 : i < r
      · rw [if_pos h1, if_pos (by omega)]
      · rw [if_neg h1]
        by_cases h2 : i < r + 1
        · have : i = r := by omega
          subst this
          rw [if_pos h2]
          have e1 : cellAtoms rest T.content i j = [] := by unfold cellAtoms; rw [hn]; rfl
          rw [e1]
          cases hg : dget j s.delayed with
          | none => rfl
          | some d =>
            have := (hi.late j d hg).1
            simp only
            rw [if_neg (by omega)]
        · rw [if_neg h2]
  · have := hi.late c d hd
    refine ⟨?_, this.2⟩
    rcases hN c with h | ⟨h, -⟩ <;> omega

theorem CSpans.nextRow {r : Nat} {s : TS σ P B C} (hi : CSpans T r T.cols s) : CSpans T (r + 1) 0 s := by
  refine ⟨hi.lt, fun c k m hk => ?_⟩
  have := hi.rows c k m hk
  rw [if_pos (hi.lt c _ hk)] at this
  rw [if_neg (by omega)]
  exact this

/-- the same cells, spans and content -/
structure SameCells (s s' : TS σ P B C) : Prop where
  index : s'.index = s.index
  parts : s'.parts = s.parts
  delayed : s'.delayed = s.delayed
  rowspan : s'.rowspan = s.rowspan

theorem CShown.same {N : Nat → Nat} {s s' : TS σ P B C} {t : List ((Nat × Nat) × A)} (hi : CShown T rest N s t) (h : s'.delayed = s.delayed) :
    CShown T rest N s' t := by
  refine ⟨fun i j => ?_, fun c d hd => ?_⟩
  · rw [hi.eq i j]; simp only [leftOf, h]
  · rw [h] at hd; exact hi.late c d hd

theorem CSpans.same {r col : Nat} {s s' : TS σ P B C} (hi : CSpans T r col s) (h : s'.rowspan = s.rowspan) : CSpans T r col s' :=
  ⟨by rw [h]; exact hi.lt, by rw [h]; exact hi.rows⟩

theorem canGoOn_pending {s : TS σ P B C} (h : s.canGoOn T = true) : ∀ c d, dget c s.delayed = some d → ∃ q, dget c s.rowspan = some q := by
  intro c d hd
  unfold TS.canGoOn at h
  simp only [ne_eq, decide_eq_true_eq] at h
  have := (List.all_eq_true.1 h.2) (c, d) (dget_mem hd)
  exact Option.isSome_iff_exists.1 this

theorem canGoOn_empty {s : TS σ P B C} (hc : T.cols ≠ 0) (h : s.delayed = []) : s.canGoOn T = true := by
  unfold TS.canGoOn
  simp [h]
  exact fun h => hc h.symm

/-- the parts of what a row does -/
structure RowOut (T : TConf σ P B C) (atoms : P → List A) (rest : σ → List A) (r : Nat) (s s' : TS σ P B C) (act : RowAct)
    (t u : List ((Nat × Nat) × A)) : Prop where
  parts : s'.parts.flatMap atoms = s.parts.flatMap atoms ++ u.map Prod.snd
  cells : CShown T rest (fun _ => r + 1) s' (t ++ u)
  index : s'.index = r
  notFirst : s'.firstRow = false
  finished : s'.finished = s.finished
  cont : act = .continue → CSpans T (r + 1) 0 s' ∧ ∀ c d, dget c s'.delayed = some d → ∃ q, dget c s'.rowspan = some q
  inter : act = .interrupt → s'.delayed ≠ []
  cancel : act = .cancel → s.firstRow = true

theorem endRow_same [DecidableEq B] (s : TS σ P B C) : SameCells s (s.endRow T) := ⟨rfl, rfl, rfl, rfl⟩

theorem addRow_unfold_width [DecidableEq B] {s s' : TS σ P B C} {row : List (RowEl σ C)} {dl : Bool} {act : RowAct}
    (h : s.addRow T row dl = .ok (act, s')) : row.length = T.cols ∧ ∃ s0 s1 : TS σ P B C, SameCells s s0 ∧ s0.colspan = 0 ∧ s0.maxHeight = 0 ∧
      s0.firstRow = s.firstRow ∧ s0.finished = s.finished ∧ s0.height = s.height ∧ s0.currentHeight = s.currentHeight ∧ s0.rowMax = s.height - s.currentHeight ∧
      s0.heightsMem = s.heightsMem ∧ s0.width = s.width ∧
      s0.addCells T dl 0 row = .ok s1 ∧ SameCells s1 s' ∧ s'.finished = s1.finished ∧
      s'.firstRow = false ∧ (act = .cancel → s1.firstRow = true ∧ s1.maxHeight = 0 ∧ s'.currentHeight = s1.currentHeight ∧ s'.height = s1.height) ∧
      (act ≠ .cancel → (act = .continue ↔ s'.canGoOn T = true) ∧ s'.height = s1.height ∧ s'.currentHeight = s1.currentHeight + s1.maxHeight ∧
        s'.heightsMem = s1.heightsMem.map fun e => (e.1, e.2 - s1.maxHeight)) := by
  unfold TS.addRow at h
  split at h
  · cases h
  · rename_i hlen
    simp only at h
    split at h
    · cases h
    · rename_i s1 h1
      refine ⟨not_not.1 hlen, { s with
        maxHeight := 0
        rowMax := s.height - s.currentHeight
        colspan := 0
        topLines := []
        topInt := true
        isRowspan := false
        yAbs := s.y - s.currentHeight }, s1, ⟨rfl, rfl, rfl, rfl⟩, rfl, rfl, rfl, rfl, rfl, rfl, rfl, rfl, rfl, h1, ?_⟩
      split at h
      · rename_i hc
        cases h
        exact ⟨⟨rfl, rfl, rfl, rfl⟩, rfl, rfl, fun _ => ⟨hc.1, hc.2, rfl, rfl⟩, fun h => absurd rfl h⟩
      · simp only [Except.ok.injEq, Prod.mk.injEq] at h
        obtain ⟨ha, hs⟩ := h
        subst hs
        refine ⟨⟨rfl, rfl, rfl, rfl⟩, rfl, rfl, ?_, ?_⟩
        · intro hc
          rw [← ha] at hc
          split at hc <;> cases hc
        · intro _
          refine ⟨?_, rfl, rfl, rfl⟩
          have e : (TS.endRow T { s1 with firstRow := false }).canGoOn T = ({ s1 with firstRow := false } : TS σ P B C).canGoOn T := rfl
          rw [← ha, e]
          cases ({ s1 with firstRow := false } : TS σ P B C).canGoOn T <;> simp

theorem addRow_unfold [DecidableEq B] {s s' : TS σ P B C} {row : List (RowEl σ C)} {dl : Bool} {act : RowAct}
    (h : s.addRow T row dl = .ok (act, s')) : row.length = T.cols ∧ ∃ s0 s1 : TS σ P B C, SameCells s s0 ∧ s0.colspan = 0 ∧ s0.maxHeight = 0 ∧
      s0.firstRow = s.firstRow ∧ s0.finished = s.finished ∧ s0.height = s.height ∧ s0.currentHeight = s.currentHeight ∧ s0.rowMax = s.height - s.currentHeight ∧
      s0.heightsMem = s.heightsMem ∧
      s0.addCells T dl 0 row = .ok s1 ∧ SameCells s1 s' ∧ s'.finished = s1.finished ∧
      s'.firstRow = false ∧ (act = .cancel → s1.firstRow = true ∧ s1.maxHeight = 0 ∧ s'.currentHeight = s1.currentHeight ∧ s'.height = s1.height) ∧
      (act ≠ .cancel → (act = .continue ↔ s'.canGoOn T = true) ∧ s'.height = s1.height ∧ s'.currentHeight = s1.currentHeight + s1.maxHeight ∧
        s'.heightsMem = s1.heightsMem.map fun e => (e.1, e.2 - s1.maxHeight)) := by
  obtain ⟨hlen, s0, s1, a1, a2, a3, a4, a5, a6, a7, a8, a9, -, rest⟩ := addRow_unfold_width h
  exact ⟨hlen, s0, s1, a1, a2, a3, a4, a5, a6, a7, a8, a9, rest⟩

theorem RowInv.row [DecidableEq B] (H : Honest T.exec atoms rest) (hb : rest T.blank = []) (hok : SpansOk T.content) (hst : CellStylesOk T)
    (hcols : T.cols ≠ 0) {r : Nat} {s s' : TS σ P B C} {t : List ((Nat × Nat) × A)} (hi : RowInv T rest r s t) {row : List (Option (Cell σ C))}
    (hrow : T.content[r]? = some row) {act : RowAct} (h : s.addRow T (row.map .cell) false = .ok (act, s')) :
    ∃ u, RowOut T atoms rest r s s' act t u ∧ (∀ e ∈ u, e.1.1 = r) ∧ (act = .cancel → (∀ c, some c ∈ row → c.rows = 0) → u = []) ∧
      ((∀ c, some c ∈ row → c.rows = 0) → s.rowspan = [] → s.delayed = [] →
        s'.rowspan = [] ∧ (∀ c d, dget c s'.delayed = some d → d.row = r ∧ d.rows = 0)) := by
  obtain ⟨hlen, s0, s1, e1, e2, e3, e4, e4', -, -, -, -, h1, f1, f1', f2, f3, f4⟩ := addRow_unfold h
  simp only [List.length_map] at hlen
  have hn : NInv T rest r 0 s0 t := by
    refine ⟨e1.index.trans hi.index, ?_, hi.spans.same e1.rowspan, by intro j h1 h2; omega, ?_⟩
    · have := hi.cells.same e1.delayed
      simpa using this
    · intro c d _ hd
      rw [e1.delayed] at hd
      rw [e1.rowspan]
      exact hi.pending c d hd
  obtain ⟨u, b1, b2, b3, b4, b5, b6, b7⟩ := hn.cells_run H hb hok hst row (fun k hk => by rw [hrow]; simp) (by omega) h1
  rw [Nat.zero_add, hlen] at b2
  have hcells : CShown T rest (fun _ => r + 1) s' (t ++ u) := by
    refine (b2.cells.allCols ?_).same f1.delayed
    intro j
    by_cases hj : j < T.cols
    · left; simp [hj]
    · right
      refine ⟨by simp [hj], ?_⟩
      unfold cellAt
      rw [hrow, Option.bind_some, List.getElem?_eq_none (by omega)]
      rfl
  refine ⟨u, ⟨?_, hcells, ?_, f2, ?_, ?_, ?_, ?_⟩, b5, ?_, ?_⟩
  · rw [f1.parts, b1, e1.parts]
  · rw [f1.index, b3.index, e1.index, hi.index]
  · rw [f1', b3.finished, e4']
  · intro ha
    refine ⟨b2.spans.nextRow.same f1.rowspan, ?_⟩
    have := ((f4 (by rw [ha]; simp)).1).1 ha
    exact canGoOn_pending this
  · intro ha hd
    have := (f4 (by rw [ha]; simp)).1
    rw [ha] at this
    exact absurd (this.2 (canGoOn_empty hcols hd)) (by simp)
  · intro ha
    rw [← e4, ← b3.firstRow]
    exact (f3 ha).1
  · intro ha hp
    by_contra hu
    have := b6 hu hp
    rw [(f3 ha).2.1] at this
    exact lt_irrefl _ this
  · intro hp hr hd
    have := b7 hp (by rw [e1.rowspan, hr]) (by rw [e1.delayed, hd]; intro c d hd; cases hd)
    rw [f1.rowspan, f1.delayed]
    exact this

/-! ### The delayed row -/

structure CLate (T : TConf σ P B C) (rest : σ → List A) (r col : Nat) (d0 : List (Nat × Delayed σ C)) (s : TS σ P B C) (t : List ((Nat × Nat) × A)) :
    Prop where
  index : s.index = r
  cells : CShown T rest (fun _ => r + 1) s t
  spans : CSpans T r col s
  fresh : ∀ c, col ≤ c → dget c s.rowspan = none
  same : ∀ c, col ≤ c → dget c s.delayed = dget c d0

theorem CLate.cell [DecidableEq B] (H : Honest T.exec atoms rest) (hb : rest T.blank = []) {r col : Nat} {d0 : List (Nat × Delayed σ C)} {s s' : TS σ P B C}
    {t : List ((Nat × Nat) × A)} (hi : CLate T rest r col d0 s t) (hcol : col < T.cols)
    (h : s.addCell T col (.late (dget col d0)) true = .ok s') :
    ∃ u : List ((Nat × Nat) × A), s'.parts.flatMap atoms = s.parts.flatMap atoms ++ u.map Prod.snd ∧ CLate T rest r (col + 1) d0 s' (t ++ u) ∧
      CellFrame s s' ∧ ((∀ c d, dget c d0 = some d → d.row = r ∧ d.rows = 0) → (∀ e ∈ u, e.1.1 = r) ∧
        (s.rowspan = [] → s'.rowspan = []) ∧
        ((∀ c d, dget c s.delayed = some d → d.row = r ∧ d.rows = 0) → (∀ c d, dget c s'.delayed = some d → d.row = r ∧ d.rows = 0))) := by
  rcases addCell_cases h with ⟨hsp, hs⟩ | ⟨hsp, hs⟩
  · refine ⟨[], by simp [hs.parts], ⟨hs.frame.index.trans hi.index, ?_, hi.spans.skip hs hcol, ?_, ?_⟩, hs.frame, fun _ => ⟨by simp, ?_, ?_⟩⟩
    · rw [List.append_nil]; exact hi.cells.same hs.delayed
    · intro c hc; rw [hs.others c (by omega)]; exact hi.fresh c (by omega)
    · intro c hc; rw [hs.delayed]; exact hi.same c (by omega)
    · intro hr; rw [(hs.none (hi.fresh col (le_refl _))).1, hr]
    · rw [hs.delayed]; exact id
  · rw [hi.index] at hs
    generalize hd : T.element r (.late (dget col d0)) = d at hs
    have hsame := hi.same col (le_refl _)
    -- the row and rest of the element
    have hd' : (dget col s.delayed = none ∧ d.row = r ∧ d.rows = 0 ∧ restOf rest d.content = []) ∨
        (∃ d1, dget col s.delayed = some d1 ∧ d.row = d1.row ∧ d.rows = d1.rows ∧ d.cols = d1.cols ∧ d.content = d1.content) := by
      rw [hsame]
      cases hg : dget col d0 with
      | none =>
        left
        rw [hg] at hd
        rw [← hd]
        exact ⟨rfl, rfl, rfl, hb⟩
      | some d1 =>
        right
        rw [hg] at hd
        refine ⟨d1, rfl, ?_⟩
        rw [← hd]
        simp only [TConf.element]
        split <;> exact ⟨rfl, rfl, rfl, rfl⟩
    have hclear : d.Clear T col := by
      rcases hd' with ⟨-, -, h0, -⟩ | ⟨d1, h1, h2, h3, h4, h5⟩
      · intro i j a1 a2; omega
      · have := (hi.cells.late col d1 h1).2
        intro i j a1 a2 a3 a4
        exact this i j (by omega) (by omega) a3 (by omega)
    have hrow : d.row ≤ r := by
      rcases hd' with ⟨-, h0, -⟩ | ⟨d1, h1, h2, -⟩
      · omega
      · have := (hi.cells.late col d1 h1).1
        omega
    have hbase : CShown T rest (fun _ => r + 1) { s with delayed := dset col d s.delayed } t := by
      refine ⟨fun i j => ?_, fun c d2 hd2 => ?_⟩
      · rw [hi.cells.eq i j]
        congr 1
        unfold leftOf
        by_cases hj : j = col
        · subst hj
          simp only [dget_dset_self]
          rcases hd' with ⟨h0, h1, h2, h3⟩ | ⟨d1, h1, h2, h3, h4, h5⟩
          · rw [h0]
            simp only [h3, ite_self]
          · rw [h1]
            simp only [h2, h5]
        · simp only [dget_dset_ne (Ne.symm hj)]
      · simp only [dget_dset] at hd2
        split at hd2
        · rename_i hc
          cases hd2
          subst hc
          exact ⟨by omega, hclear⟩
        · exact hi.cells.late c d2 hd2
    obtain ⟨out, o1, o2, o3, o4, -⟩ := CShown.started H hs hbase
    have hfr : ∀ c, c ≠ col → dget c s'.rowspan = dget c s.rowspan := by
      intro c hc
      rw [hs.rowspan]
      split
      · rw [dget_dset_ne (Ne.symm hc)]
      · rfl
    refine ⟨labelAll (d.row, col) out, by rw [o1, labelAll_snd], ⟨hs.frame.index.trans hi.index, o2,
      hi.spans.start hs hi.index hrow (hi.fresh col (le_refl _)) hclear hcol, ?_, ?_⟩, hs.frame, ?_⟩
    · intro c hc; rw [hfr c (by omega)]; exact hi.fresh c (by omega)
    · intro c hc; rw [o3 c (by omega)]; exact hi.same c (by omega)
    · intro hp
      have hpr : d.row = r ∧ d.rows = 0 := by
        rcases hd' with ⟨-, h0, h1, -⟩ | ⟨d1, h1, h2, h3, -⟩
        · exact ⟨h0, h1⟩
        · rw [hsame] at h1
          have := hp col d1 h1
          omega
      refine ⟨?_, ?_, ?_⟩
      · intro e he
        simp only [labelAll, List.mem_map] at he
        obtain ⟨a, -, rfl⟩ := he
        exact hpr.1
      · intro hr
        rw [hs.rowspan, if_neg, hr]
        unfold Delayed.rowsLeft
        rw [hi.index, hpr.1, hpr.2]
        simp
      · intro hall c d2 hd2
        by_cases hc : c = col
        · subst hc
          have := o4 d2 hd2
          exact ⟨this.1.trans hpr.1, this.2.trans hpr.2⟩
        · rw [o3 c hc] at hd2
          exact hall c d2 hd2

theorem CLate.cells_run [DecidableEq B] (H : Honest T.exec atoms rest) (hb : rest T.blank = []) {r : Nat} {d0 : List (Nat × Delayed σ C)} (n : Nat) {col : Nat}
    {s s' : TS σ P B C} {t : List ((Nat × Nat) × A)} (hi : CLate T rest r col d0 s t) (hcol : col + n ≤ T.cols)
    (h : s.addCells T true col ((List.range' col n).map fun i => .late (dget i d0)) = .ok s') :
    ∃ u : List ((Nat × Nat) × A), s'.parts.flatMap atoms = s.parts.flatMap atoms ++ u.map Prod.snd ∧ CLate T rest r (col + n) d0 s' (t ++ u) ∧
      CellFrame s s' ∧ ((∀ c d, dget c d0 = some d → d.row = r ∧ d.rows = 0) → (∀ e ∈ u, e.1.1 = r) ∧
        (s.rowspan = [] → s'.rowspan = []) ∧
        ((∀ c d, dget c s.delayed = some d → d.row = r ∧ d.rows = 0) → (∀ c d, dget c s'.delayed = some d → d.row = r ∧ d.rows = 0))) := by
  induction n generalizing col s t with
  | zero =>
    simp only [List.range'_zero, List.map_nil, TS.addCells] at h
    cases h
    exact ⟨[], by simp, by simpa using hi, CellFrame.refl _, fun _ => ⟨by simp, id, id⟩⟩
  | succ n ih =>
    simp only [List.range'_succ, List.map_cons, TS.addCells] at h
    cases h1 : s.addCell T col (.late (dget col d0)) true with
    | error e => rw [h1] at h; cases h
    | ok s1 =>
      rw [h1] at h
      obtain ⟨u1, a1, a2, a3, a4⟩ := hi.cell H hb (by omega) h1
      obtain ⟨u, b1, b2, b3, b4⟩ := ih a2 (by omega) h
      refine ⟨u1 ++ u, by rw [b1, a1, List.map_append, List.append_assoc], ?_, a3.trans b3, fun hp => ?_⟩
      · rw [← List.append_assoc, show col + (n + 1) = col + 1 + n by omega]; exact b2
      · obtain ⟨c1, c2, c3⟩ := a4 hp
        obtain ⟨d1, d2, d3⟩ := b4 hp
        refine ⟨?_, fun hr => d2 (c2 hr), fun hd => d3 (c3 hd)⟩
        intro e he
        rcases List.mem_append.1 he with he | he
        · exact c1 e he
        · exact d1 e he

/-- the invariant between two runs -/
structure BInv (T : TConf σ P B C) (rest : σ → List A) (s : TS σ P B C) (t : List ((Nat × Nat) × A)) : Prop where
  cells : CShown T rest (fun _ => if s.delayed = [] then s.index else s.index + 1) s t
  first : s.firstRow = true → s.index = 0 ∧ s.delayed = []

/-- the labels come row by row -/
def InOrder (n : Nat) (t : List ((Nat × Nat) × A)) : Prop := (t.map (·.1.1)).Pairwise (· ≤ ·) ∧ ∀ e ∈ t, e.1.1 ≤ n

theorem InOrder.append {n : Nat} {t u : List ((Nat × Nat) × A)} (h : InOrder n t) (hu : ∀ e ∈ u, e.1.1 = n) : InOrder n (t ++ u) := by
  refine ⟨?_, ?_⟩
  · rw [List.map_append, List.pairwise_append]
    refine ⟨h.1, ?_, ?_⟩
    · rw [List.pairwise_map]
      exact List.pairwise_of_forall_mem_list fun a ha b hb => by rw [hu a ha, hu b hb]
    · intro a ha b hb
      obtain ⟨e, he, rfl⟩ := List.mem_map.1 ha
      obtain ⟨f, hf, rfl⟩ := List.mem_map.1 hb
      rw [hu f hf]
      exact h.2 e he
  · intro e he
    rcases List.mem_append.1 he with he | he
    · exact h.2 e he
    · rw [hu e he]

theorem InOrder.mono {n m : Nat} {t : List ((Nat × Nat) × A)} (h : InOrder n t) (hm : n ≤ m) : InOrder m t :=
  ⟨h.1, fun e he => le_trans (h.2 e he) hm⟩

theorem nil_of_dget {K V : Type} [DecidableEq K] {d : List (K × V)} (h : ∀ k, dget k d = none) : d = [] := by
  cases d with
  | nil => rfl
  | cons p d => have := h p.1; simp [dget] at this

/-- for tables without row spans -/
def PlainInv (s : TS σ P B C) (t : List ((Nat × Nat) × A)) : Prop :=
  InOrder s.index t ∧ ∀ c d, dget c s.delayed = some d → d.row = s.index ∧ d.rows = 0

theorem addRows_inv [DecidableEq B] (H : Honest T.exec atoms rest) (hb : rest T.blank = []) (hok : SpansOk T.content) (hst : CellStylesOk T)
    (hcols : T.cols ≠ 0) (hfirst : ∀ row, T.content[0]? = some row → ∀ c, some c ∈ row → c.rows = 0)
    (l : List (List (Option (Cell σ C)))) {r : Nat} (hl : T.content.drop r = l) {s s' : TS σ P B C} {t : List ((Nat × Nat) × A)} (hi : RowInv T rest r s t)
    (hf : s.firstRow = true → r = 0 ∧ s.delayed = []) {cn : Bool} (h : s.addRows T l = .ok (cn, s')) :
    ∃ u, (cn = false → s'.parts.flatMap atoms = s.parts.flatMap atoms ++ u.map Prod.snd) ∧ (cn = true → s.firstRow = true ∧ u = []) ∧
      BInv T rest s' (t ++ u) ∧ s'.finished = s.finished ∧
      ((∀ row ∈ T.content, ∀ c, some c ∈ row → c.rows = 0) → s.rowspan = [] → InOrder r t → PlainInv s' (t ++ u)) := by
  induction l generalizing r s t with
  | nil =>
    simp only [TS.addRows, Except.ok.injEq, Prod.mk.injEq] at h
    obtain ⟨rfl, rfl⟩ := h
    refine ⟨[], by simp, by simp, ⟨?_, fun h => ?_⟩, rfl, fun _ hr ho => ?_⟩
    · rw [List.append_nil]
      by_cases hd : s.delayed = []
      · simp only [if_pos hd, hi.index]; exact hi.cells
      · simp only [if_neg hd, hi.index]
        refine hi.cells.allCols fun j => Or.inr ⟨rfl, ?_⟩
        unfold cellAt
        rw [List.getElem?_eq_none (List.drop_eq_nil_iff.1 hl)]
        rfl
    · exact ⟨hi.index.trans (hf h).1, (hf h).2⟩
    · rw [List.append_nil]
      refine ⟨hi.index ▸ ho, fun c d hd => ?_⟩
      obtain ⟨q, hq⟩ := hi.pending c d hd
      rw [hr] at hq; cases hq
  | cons row l ih =>
    have hrow : T.content[r]? = some row := by
      have := congrArg (·[0]?) hl
      simpa using this
    have hl' : T.content.drop (r + 1) = l := by
      rw [← List.drop_drop, hl]; rfl
    simp only [TS.addRows] at h
    cases h1 : s.addRow T (row.map .cell) false with
    | error e => rw [h1] at h; cases h
    | ok q =>
      obtain ⟨act, s1⟩ := q
      rw [h1] at h
      obtain ⟨u, ho, hu, hc, hp⟩ := hi.row H hb hok hst hcols hrow h1
      have hplain : (∀ row ∈ T.content, ∀ c, some c ∈ row → c.rows = 0) → s.rowspan = [] →
          s1.rowspan = [] ∧ (∀ c d, dget c s1.delayed = some d → d.row = r ∧ d.rows = 0) := by
        intro hpl hr
        refine hp (hpl row (List.mem_of_getElem? hrow)) hr (nil_of_dget fun c => ?_)
        cases hd : dget c s.delayed with
        | none => rfl
        | some d =>
          obtain ⟨q, hq⟩ := hi.pending c d hd
          rw [hr] at hq; cases hq
      cases act with
      | cancel =>
        simp only [Except.ok.injEq, Prod.mk.injEq] at h
        obtain ⟨rfl, rfl⟩ := h
        have hfr := ho.cancel rfl
        have hu0 : u = [] := hc rfl (hfirst row (by rw [← (hf hfr).1]; exact hrow))
        subst hu0
        refine ⟨[], by simp, fun _ => ⟨hfr, rfl⟩, ⟨?_, fun h => by rw [ho.notFirst] at h; cases h⟩, ho.finished, fun hpl hr hord => ?_⟩
        · by_cases hd : s1.delayed = []
          · simp only [if_pos hd, ho.index]
            have hz : ∀ j, cellAtoms rest T.content r j = [] := by
              intro j
              have a1 := ho.cells.eq r j
              have a2 := hi.cells.eq r j
              simp only [leftOf, lt_self_iff_false, if_false, Nat.lt_add_one, if_true, hd, dget, List.append_nil] at a1 a2
              rw [← a1] at a2
              have := congrArg List.length a2
              simp only [List.length_append] at this
              exact List.length_eq_zero_iff.1 (by omega)
            refine ⟨fun i j => ?_, fun c d hd' => by rw [hd] at hd'; cases hd'⟩
            rw [ho.cells.eq i j]
            congr 1
            unfold leftOf
            beta_reduce
            by_cases h1 : i < r
            · rw [if_pos h1, if_pos (by omega)]
            · rw [if_neg h1]
              by_cases h2 : i < r + 1
              · have : i = r := by omega
                subst this
                rw [if_pos h2, hd, hz]
                rfl
              · rw [if_neg h2]
          · simp only [if_neg hd, ho.index]; exact ho.cells
        · refine ⟨?_, ?_⟩
          · rw [ho.index, List.append_nil]; exact hord
          · rw [ho.index]; exact (hplain hpl hr).2
      | interrupt =>
        simp only [Except.ok.injEq, Prod.mk.injEq] at h
        obtain ⟨rfl, rfl⟩ := h
        refine ⟨u, fun _ => ho.parts, by simp, ⟨?_, fun h => by rw [ho.notFirst] at h; cases h⟩, ho.finished, fun hpl hr hord => ?_⟩
        · simp only [if_neg (ho.inter rfl), ho.index]; exact ho.cells
        · refine ⟨?_, ?_⟩
          · rw [ho.index]; exact hord.append hu
          · rw [ho.index]; exact (hplain hpl hr).2
      | «continue» =>
        simp only at h
        obtain ⟨c1, c2⟩ := ho.cont rfl
        have hi' : RowInv T rest (r + 1) { s1 with index := s1.index + 1 } (t ++ u) :=
          ⟨by simp only [ho.index], ho.cells.same rfl, c1.same rfl, c2⟩
        obtain ⟨u', b1, b2, b3, b4, b5⟩ := ih hl' hi' (fun h => by
          have : s1.firstRow = true := h
          rw [ho.notFirst] at this; cases this) h
        refine ⟨u ++ u', ?_, ?_, by rw [← List.append_assoc]; exact b3, b4.trans ho.finished, fun hpl hr hord => ?_⟩
        · intro hcn
          rw [b1 hcn, List.map_append, ← List.append_assoc]
          show s1.parts.flatMap atoms ++ _ = _
          rw [ho.parts]
        · intro hcn
          have : s1.firstRow = true := (b2 hcn).1
          rw [ho.notFirst] at this; cases this
        · rw [← List.append_assoc]
          exact b5 hpl (hplain hpl hr).1 ((hord.append hu).mono (by omega))

theorem addLate_inv [DecidableEq B] (H : Honest T.exec atoms rest) (hb : rest T.blank = []) (hcols : T.cols ≠ 0)
    {s s' : TS σ P B C} {t : List ((Nat × Nat) × A)} (hi : BInv T rest s t) (hr : s.rowspan = []) {go : Bool} (h : s.addLate T = .ok (go, s')) :
    ∃ u, s'.parts.flatMap atoms = s.parts.flatMap atoms ++ u.map Prod.snd ∧
      (go = true → RowInv T rest s'.index s' (t ++ u) ∧ (s'.firstRow = true → s'.index = 0 ∧ s'.delayed = [] ∧ s'.parts = s.parts)) ∧
      (go = false → BInv T rest s' (t ++ u)) ∧ s'.finished = s.finished ∧
      (PlainInv s t → s'.rowspan = [] ∧ InOrder s'.index (t ++ u) ∧ (go = false → PlainInv s' (t ++ u))) := by
  unfold TS.addLate at h
  by_cases hd : s.delayed = []
  · rw [if_pos (by simp [hd])] at h
    simp only [Except.ok.injEq, Prod.mk.injEq] at h
    obtain ⟨rfl, rfl⟩ := h
    refine ⟨[], by simp, fun _ => ⟨⟨rfl, ?_, ⟨(by rw [hr]; intro c q hq; cases hq), (by rw [hr]; intro c k m hq; cases hq)⟩, (by rw [hd]; intro c d hd; cases hd)⟩, fun h => ?_⟩, by simp, rfl, fun hp => ⟨hr, by rw [List.append_nil]; exact hp.1, by simp⟩⟩
    · have := hi.cells
      simp only [if_pos hd] at this
      rw [List.append_nil]
      exact this
    · exact ⟨(hi.first h).1, (hi.first h).2, rfl⟩
  · rw [if_neg (by simp [hd])] at h
    have hnf : s.firstRow = false := by
      cases hf : s.firstRow with
      | false => rfl
      | true => exact absurd (hi.first hf).2 hd
    have hcell := hi.cells
    simp only [if_neg hd] at hcell
    cases h1 : s.addRow T ((List.range T.cols).map fun i => .late (dget i s.delayed)) true with
    | error e => rw [h1] at h; cases h
    | ok q =>
      obtain ⟨act, s1⟩ := q
      rw [h1] at h
      obtain ⟨-, s0, s2, e1, e2, e3, e4, e4', -, -, -, -, g1, f1, f1', f2, f3, f4⟩ := addRow_unfold h1
      have hl : CLate T rest s.index 0 s.delayed s0 t := by
        refine ⟨e1.index, hcell.same e1.delayed, ⟨?_, ?_⟩, ?_, ?_⟩
        · rw [e1.rowspan, hr]; intro c q hq; cases hq
        · rw [e1.rowspan, hr]; intro c k m hq; cases hq
        · rw [e1.rowspan, hr]; intro c _; rfl
        · rw [e1.delayed]; intro c _; rfl
      rw [List.range_eq_range'] at g1
      obtain ⟨u, b1, b2, b3, b4⟩ := hl.cells_run H hb T.cols (by omega) g1
      have hnc : act ≠ .cancel := by
        intro ha
        have := (f3 ha).1
        rw [b3.firstRow, e4, hnf] at this
        cases this
      have hcells : CShown T rest (fun _ => s.index + 1) s1 (t ++ u) := b2.cells.same f1.delayed
      have hidx : s1.index = s.index := by rw [f1.index, b3.index, e1.index]
      have hfin : s1.finished = s.finished := by rw [f1', b3.finished, e4']
      have hpl : PlainInv s t → s1.rowspan = [] ∧ InOrder s.index (t ++ u) ∧ PlainInv s1 (t ++ u) := by
        intro hp
        obtain ⟨c1, c2, c3⟩ := b4 hp.2
        have c4 : ∀ c d, dget c s1.delayed = some d → d.row = s.index ∧ d.rows = 0 := by
          rw [f1.delayed]
          exact c3 (by rw [e1.delayed]; exact hp.2)
        refine ⟨by rw [f1.rowspan]; exact c2 (by rw [e1.rowspan, hr]), hp.1.append c1, ?_, ?_⟩
        · rw [hidx]; exact hp.1.append c1
        · rw [hidx]; exact c4
      have hparts : s1.parts.flatMap atoms = s.parts.flatMap atoms ++ u.map Prod.snd := by rw [f1.parts, b1, e1.parts]
      cases act with
      | cancel => exact absurd rfl hnc
      | interrupt =>
        simp only [Except.ok.injEq, Prod.mk.injEq] at h
        obtain ⟨rfl, rfl⟩ := h
        have hne : s1.delayed ≠ [] := by
          intro hd
          have := (f4 (by simp)).1
          exact absurd (this.2 (canGoOn_empty hcols hd)) (by simp)
        refine ⟨u, hparts, by simp, fun _ => ⟨?_, fun h => by rw [f2] at h; cases h⟩, hfin, fun hp => ⟨(hpl hp).1, ?_, fun _ => (hpl hp).2.2⟩⟩
        · simp only [if_neg hne, hidx]; exact hcells
        · rw [hidx]; exact (hpl hp).2.1
      | «continue» =>
        simp only [Except.ok.injEq, Prod.mk.injEq] at h
        obtain ⟨rfl, rfl⟩ := h
        have hgo := ((f4 (by simp)).1).1 rfl
        rw [Nat.zero_add] at b2
        refine ⟨u, hparts, fun _ => ⟨⟨rfl, ?_, ?_, canGoOn_pending hgo⟩, fun h => ?_⟩, by simp, hfin, fun hp => ⟨(hpl hp).1, ?_, by simp⟩⟩
        · show CShown T rest (fun _ => s1.index + 1) _ _
          rw [hidx]
          exact hcells.same rfl
        · show CSpans T (s1.index + 1) 0 _
          rw [hidx]
          exact b2.spans.nextRow.same f1.rowspan
        · have : s1.firstRow = true := h
          rw [f2] at this; cases this
        · show InOrder (s1.index + 1) _
          rw [hidx]
          exact (hpl hp).2.1.mono (by omega)

theorem close_same [DecidableEq B] (T : TConf σ P B C) (s : TS σ P B C) : SameCells s (s.close T) ∧ (s.close T).firstRow = s.firstRow ∧
    (s.close T).finished = (s.finished || (decide (T.content.length ≤ s.index) && s.delayed.isEmpty)) := by
  have key : ∀ (l : List Nat) (s0 : TS σ P B C), SameCells s0 (l.foldl (fun s col => s.closeCol T col) s0) ∧
      (l.foldl (fun s col => s.closeCol T col) s0).firstRow = s0.firstRow ∧ (l.foldl (fun s col => s.closeCol T col) s0).finished = s0.finished := by
    intro l
    induction l with
    | nil => intro s0; exact ⟨⟨rfl, rfl, rfl, rfl⟩, rfl, rfl⟩
    | cons a l ih =>
      intro s0
      have := ih (s0.closeCol T a)
      exact ⟨⟨this.1.index, this.1.parts, this.1.delayed, this.1.rowspan⟩, this.2.1, this.2.2⟩
  have := key (List.range T.cols) { s with topLines := [], topInt := true, yAbs := s.y - s.currentHeight }
  refine ⟨⟨this.1.index, this.1.parts, this.1.delayed, this.1.rowspan⟩, this.2.1, ?_⟩
  unfold TS.close
  simp only [TS.processBorders]
  rw [this.1.index, this.1.delayed, this.2.2]
  rfl

theorem BInv.same {s s' : TS σ P B C} {t : List ((Nat × Nat) × A)} (h : BInv T rest s t) (h1 : s'.delayed = s.delayed) (h2 : s'.index = s.index)
    (h3 : s'.firstRow = s.firstRow) : BInv T rest s' t :=
  ⟨by rw [h1, h2]; exact h.cells.same h1, by rw [h1, h2, h3]; exact h.first⟩

theorem run_inv [DecidableEq B] (H : Honest T.exec atoms rest) (hb : rest T.blank = []) (hok : SpansOk T.content) (hst : CellStylesOk T)
    (hcols : T.cols ≠ 0) (hfirst : ∀ row, T.content[0]? = some row → ∀ c, some c ∈ row → c.rows = 0)
    {s s' : TS σ P B C} {t : List ((Nat × Nat) × A)} (hi : BInv T rest s t) {x y w hh : Rat} (h : s.run T x y w hh = .ok s') :
    ∃ u, s'.parts.flatMap atoms = u.map Prod.snd ∧ BInv T rest s' (t ++ u) ∧
      (s'.finished = true → s.finished = true ∨ (T.content.length ≤ s'.index ∧ s'.delayed = [])) ∧
      ((∀ row ∈ T.content, ∀ c, some c ∈ row → c.rows = 0) → PlainInv s t → PlainInv s' (t ++ u)) := by
  unfold TS.run at h
  have hi0 : BInv T rest (s.clear T x y w hh) t := hi.same rfl rfl rfl
  have fin : ∀ s2 : TS σ P B C, s2.finished = s.finished → (s2.close T).finished = true → s.finished = true ∨ (T.content.length ≤ (s2.close T).index ∧ (s2.close T).delayed = []) := by
    intro s2 h1 h2
    obtain ⟨a1, a2, a3⟩ := close_same T s2
    rw [a3, h1] at h2
    rw [a1.index, a1.delayed]
    simp only [Bool.or_eq_true, Bool.and_eq_true, decide_eq_true_eq, List.isEmpty_iff] at h2
    exact h2
  cases h1 : (s.clear T x y w hh).addLate T with
  | error e => rw [h1] at h; cases h
  | ok q =>
    obtain ⟨go, s1⟩ := q
    rw [h1] at h
    obtain ⟨u, a1, a2, a3, a4, a5⟩ := addLate_inv H hb hcols hi0 rfl h1
    have a1' : s1.parts.flatMap atoms = u.map Prod.snd := by rw [a1]; rfl
    cases go with
    | false =>
      cases h
      obtain ⟨b1, b2, b3⟩ := close_same T s1
      refine ⟨u, by rw [b1.parts]; exact a1', (a3 rfl).same b1.delayed b1.index b2, fin s1 a4, fun _ hp => ?_⟩
      have := (a5 hp).2.2 rfl
      unfold PlainInv
      rw [b1.index, b1.delayed]
      exact this
    | true =>
      simp only at h
      obtain ⟨c1, c2⟩ := a2 rfl
      cases h2 : s1.addRows T (T.content.drop s1.index) with
      | error e => rw [h2] at h; cases h
      | ok q =>
        obtain ⟨cn, s2⟩ := q
        rw [h2] at h
        obtain ⟨u', d1, d2, d3, d4, d5⟩ := addRows_inv H hb hok hst hcols hfirst _ rfl c1 (fun h => ⟨(c2 h).1, (c2 h).2.1⟩) h2
        cases cn with
        | true =>
          cases h
          obtain ⟨e1, rfl⟩ := d2 rfl
          have hu : u = [] := by
            have := (c2 e1).2.2
            rw [this] at a1'
            have h0 : (s.clear T x y w hh).parts = [] := rfl
            rw [h0] at a1'
            simpa using a1'.symm
          subst hu
          rw [List.append_nil] at d3 d5 a5
          refine ⟨[], rfl, BInv.same (s' := { s2 with parts := [], lines := [], fills := [] }) d3 rfl rfl rfl, fun h => ?_, fun hpl hp => ?_⟩
          · left
            have : s2.finished = true := h
            rw [d4, a4] at this
            exact this
          · have := d5 hpl (a5 hp).1 (a5 hp).2.1
            exact this
        | false =>
          cases h
          obtain ⟨b1, b2, b3⟩ := close_same T s2
          refine ⟨u ++ u', ?_, ?_, fin s2 (d4.trans a4), fun hpl hp => ?_⟩
          · rw [b1.parts, d1 rfl, a1', List.map_append]
          · rw [← List.append_assoc]
            exact d3.same b1.delayed b1.index b2
          · have := d5 hpl (a5 hp).1 (a5 hp).2.1
            unfold PlainInv
            rw [b1.index, b1.delayed, ← List.append_assoc]
            exact this

theorem runs_inv [DecidableEq B] (H : Honest T.exec atoms rest) (hb : rest T.blank = []) (hok : SpansOk T.content) (hst : CellStylesOk T)
    (hcols : T.cols ≠ 0) (hfirst : ∀ row, T.content[0]? = some row → ∀ c, some c ∈ row → c.rows = 0)
    (rects : List (Rat × Rat × Rat × Rat)) {s s' : TS σ P B C} {t : List ((Nat × Nat) × A)} (hi : BInv T rest s t)
    (hf : s.finished = true → T.content.length ≤ s.index ∧ s.delayed = [])
    {ps : List P} (h : s.runs T rects = .ok (ps, s')) :
    ∃ u, ps.flatMap atoms = u.map Prod.snd ∧ BInv T rest s' (t ++ u) ∧ (s'.finished = true → ∀ i j, leftOf T rest (fun _ => if s'.delayed = [] then s'.index else s'.index + 1) s' i j = []) ∧
      ((∀ row ∈ T.content, ∀ c, some c ∈ row → c.rows = 0) → PlainInv s t → PlainInv s' (t ++ u)) := by
  have done : ∀ s1 : TS σ P B C, T.content.length ≤ s1.index ∧ s1.delayed = [] → ∀ i j, leftOf T rest (fun _ => if s1.delayed = [] then s1.index else s1.index + 1) s1 i j = [] := by
    intro s1 h1 i j
    unfold leftOf
    simp only [h1.2, if_true, dget]
    split
    · rfl
    · unfold cellAtoms cellAt
      rw [List.getElem?_eq_none (by omega)]
      rfl
  induction rects generalizing s t ps with
  | nil =>
    simp only [TS.runs, Except.ok.injEq, Prod.mk.injEq] at h
    obtain ⟨rfl, rfl⟩ := h
    exact ⟨[], rfl, by simpa using hi, fun hfin => done s (hf hfin), fun _ hp => by simpa using hp⟩
  | cons q rects ih =>
    obtain ⟨x, y, w, hh⟩ := q
    simp only [TS.runs] at h
    cases h1 : s.run T x y w hh with
    | error e => rw [h1] at h; cases h
    | ok s1 =>
      rw [h1] at h
      simp only at h
      cases h2 : s1.runs T rects with
      | error e => rw [h2] at h; cases h
      | ok q =>
        obtain ⟨ps', s2⟩ := q
        rw [h2] at h
        cases h
        obtain ⟨u, a1, a2, a3, a4⟩ := run_inv H hb hok hst hcols hfirst hi h1
        have hf1 : s1.finished = true → T.content.length ≤ s1.index ∧ s1.delayed = [] := by
          intro hfin
          rcases a3 hfin with hfin | hfin
          · obtain ⟨g1, g2⟩ := hf hfin
            unfold TS.run TS.addLate at h1
            have e1 : (s.clear T x y w hh).delayed.isEmpty = true := by show s.delayed.isEmpty = true; simp [g2]
            have e2 : T.content.drop (s.clear T x y w hh).index = [] := List.drop_eq_nil_iff.2 g1
            rw [if_pos e1] at h1
            simp only [e2, TS.addRows, Except.ok.injEq] at h1
            obtain ⟨b1, -, -⟩ := close_same T (s.clear T x y w hh)
            rw [← h1, b1.index, b1.delayed]
            exact ⟨g1, g2⟩
          · exact hfin
        obtain ⟨u', b1, b2, b3, b4⟩ := ih a2 hf1 h2
        refine ⟨u ++ u', by rw [List.flatMap_append, a1, b1, List.map_append], by rw [← List.append_assoc]; exact b2, b3, fun hpl hp => ?_⟩
        rw [← List.append_assoc]
        exact b4 hpl (a4 hpl hp)

end

theorem BInv.new (T : TConf σ P B C) (rest : σ → List A) (x y w h : Rat) : BInv T rest (TS.new x y w h) [] := by
  refine ⟨⟨fun i j => ?_, fun c d hd => by cases hd⟩, fun _ => ⟨rfl, rfl⟩⟩
  simp [labelled, leftOf, TS.new]

/-- C33 (partial): in a table with well-formed spans whose first row has no row spans, the positions merged into an earlier cell add
nothing and every other cell adds its content, whatever the rectangles: the atoms shown can be labelled with grid positions so that those
of each position are, in order, the first atoms of its content, and all of them once the table is finished. Partial because of
`C33_first_row_lost_false` and `C33_after_break_false`. Without row spans the rows are shown one after the other. -/
theorem C33_cells_partial [DecidableEq B] (T : TConf σ P B C) (atoms : P → List A) (rest : σ → List A) (H : Honest T.exec atoms rest)
    (hb : rest T.blank = []) (hok : SpansOk T.content) (hst : CellStylesOk T) (hcols : T.cols ≠ 0)
    (hfirst : ∀ j c, cellAt T.content 0 j = some c → c.rows = 0) (x y w h : Rat) (rects : List (Rat × Rat × Rat × Rat))
    (ps : List P) (s : TS σ P B C) (hr : (TS.new x y w h).runs T rects = .ok (ps, s)) :
    ∃ t : List ((Nat × Nat) × A), t.map Prod.snd = ps.flatMap atoms ∧
      (∀ i j, labelled t i j <+: cellAtoms rest T.content i j) ∧
      (s.finished = true → ∀ i j, labelled t i j = cellAtoms rest T.content i j) ∧
      ((∀ i j c, cellAt T.content i j = some c → c.rows = 0) → RowOrder rest T.content t) := by
  have hf : ∀ row, T.content[0]? = some row → ∀ c, some c ∈ row → c.rows = 0 := by
    intro row hrow c hc
    obtain ⟨j, hj⟩ := List.mem_iff_getElem?.1 hc
    exact hfirst j c (by unfold cellAt; rw [hrow, Option.bind_some, hj]; rfl)
  obtain ⟨u, a1, a2, a3, a4⟩ := runs_inv H hb hok hst hcols hf rects (BInv.new T rest x y w h) (by intro h; cases h) hr
  rw [List.nil_append] at a2 a4
  refine ⟨u, a1.symm, fun i j => ⟨_, (a2.cells.eq i j).symm⟩, fun hfin i j => ?_, fun hrows => ?_⟩
  · rw [a2.cells.eq i j, a3 hfin i j, List.append_nil]
  · have hf : ∀ row ∈ T.content, ∀ c, some c ∈ row → c.rows = 0 := by
      intro row hrow c hc
      obtain ⟨i, hi⟩ := List.mem_iff_getElem?.1 hrow
      obtain ⟨j, hj⟩ := List.mem_iff_getElem?.1 hc
      exact hrows i j c (by unfold cellAt; rw [hi, Option.bind_some, hj]; rfl)
    obtain ⟨b1, b2⟩ := a4 hf ⟨⟨List.Pairwise.nil, by simp⟩, by intro c d hd; cases hd⟩
    refine ⟨b1.1, fun e he i hi j => ?_⟩
    have hlt := b1.2 e he
    rw [a2.cells.eq i j]
    have : leftOf T rest (fun _ => if s.delayed = [] then s.index else s.index + 1) s i j = [] := by
      unfold leftOf
      simp only []
      rw [if_pos (by split <;> omega)]
      cases hd : dget j s.delayed with
      | none => rfl
      | some d =>
        simp only []
        rw [if_neg (by have := (b2 j d hd).1; omega)]
    rw [this, List.append_nil]

/-- C29 (partial): a table of plain cells shows every cell once, completely and row by row, whatever the rectangles. Partial because the
margins and borders must not be negative (`C29_negative_margin_false`). -/
theorem C29_cells_partial [DecidableEq B] (T : TConf σ P B C) (atoms : P → List A) (rest : σ → List A) (H : Honest T.exec atoms rest)
    (hb : rest T.blank = []) (hplain : ∀ i j c, cellAt T.content i j = some c → c.rows = 0 ∧ c.cols = 0) (hst : CellStylesOk T) (hcols : T.cols ≠ 0)
    (x y w h : Rat) (rects : List (Rat × Rat × Rat × Rat)) (ps : List P) (s : TS σ P B C)
    (hr : (TS.new x y w h).runs T rects = .ok (ps, s)) :
    ∃ t : List ((Nat × Nat) × A), t.map Prod.snd = ps.flatMap atoms ∧
      RowOrder rest T.content t ∧
      (∀ i j, labelled t i j <+: cellAtoms rest T.content i j) ∧
      (s.finished = true → ∀ i j, labelled t i j = cellAtoms rest T.content i j) := by
  have hok : SpansOk T.content := by
    intro i j c hc i' j' h1 h2 h3 h4 h5
    obtain ⟨p1, p2⟩ := hplain i j c hc
    exact absurd (by rw [Prod.mk.injEq]; omega) h5
  obtain ⟨t, a1, a2, a3, a4⟩ := C33_cells_partial T atoms rest H hb hok hst hcols (fun j c hc => (hplain 0 j c hc).1) x y w h rects ps s hr
  exact ⟨t, a1, a4 fun i j c hc => (hplain i j c hc).1, a2, a3⟩

/-! ### Sample contents: lines of one letter, 10 points high -/

def linesExec (c : Str) (_x _y _w h : Rat) : Except PyErr (CellOut Str Str Unit Unit) :=
  let n := (h / 10).floor.toNat
  .ok ⟨[c.take n], [], [], 10 * (c.take n).length, (c.drop n).isEmpty, c.drop n⟩

theorem lines_honest : Honest linesExec (fun p => p) (fun c => c) := by
  refine ⟨?_, ?_, ?_⟩
  · intro c x y w h o ho
    cases ho
    simp
  · intro c x y w h o ho hf
    cases ho
    simpa using hf
  · intro c x y w h o ho hh
    cases ho
    simp only at hh
    have : ((c.take (h / 10).floor.toNat).length : Rat) ≤ 0 := by linarith
    have : (c.take (h / 10).floor.toNat).length = 0 := by
      have h2 : ((c.take (h / 10).floor.toNat).length : Rat) ≤ ((0 : Nat) : Rat) := by simpa using this
      exact Nat.le_zero.1 (by exact_mod_cast h2)
    simpa using this

def cellsStyle : CellStyle Unit := ⟨1, 1, 1, 1, none⟩

/-- a table of such contents -/
def cellsTable (content : List (List (Option (Cell Str Unit)))) (cols : Nat) : TConf Str Str Unit Unit :=
  ⟨content, cols, List.replicate cols (1 / (cols : Rat)), fun _ _ _ => ⟨1, ()⟩, fun _ _ => none, cellsStyle, [], linesExec⟩

/-- the letters shown, run by run, and whether the table is finished -/
def cellsShown (content : List (List (Option (Cell Str Unit)))) (cols : Nat) (heights : List Rat) : Except PyErr (Str × Bool) :=
  ((TS.new 0 0 100 100).runs (cellsTable content cols) (heights.map fun h => (0, h, 100, h))).map fun r => (r.1.flatten, r.2.finished)

def plainCell (c : Str) : Option (Cell Str Unit) := some ⟨some c, 0, 0, cellsStyle⟩

/-- two cells over three pages, row by row -/
example : cellsShown [[plainCell c!"abcd", plainCell c!"xy"], [plainCell c!"e", plainCell c!"z"]] 2 [25, 30, 40] = .ok (c!"abxycdez", true) := by
  decide +kernel

/-- row and column spans -/
example : cellsShown [[plainCell c!"a", plainCell c!"b", plainCell c!"c"], [some ⟨some c!"defg", 1, 1, cellsStyle⟩, none, plainCell c!"h"],
    [none, none, plainCell c!"i"]] 3 [30, 30, 60] = .ok (c!"abcdhefig", true) := by
  decide +kernel

/-- C29 fails for negative margins: if they take away all the height of the first row, the run is undone and what it showed is lost -/
theorem C29_negative_margin_false : ∃ content : List (List (Option (Cell Str Unit))), (∀ i j c, cellAt content i j = some c → c.rows = 0 ∧ c.cols = 0) ∧
    cellsShown content 1 [0, 40] = .ok (c!"cd", true) ∧ cellAtoms (fun c => c) content 0 0 = c!"abcd" := by
  refine ⟨[[some ⟨some c!"abcd", 0, 0, ⟨-21, 0, 0, 0, none⟩⟩]], ?_, by decide +kernel, rfl⟩
  intro i j c hc
  have h0 : i = 0 ∧ j = 0 := by
    unfold cellAt at hc
    rcases i with _ | i <;> rcases j with _ | j <;> simp at hc ⊢
  obtain ⟨rfl, rfl⟩ := h0
  have : c = ⟨some c!"abcd", 0, 0, ⟨-21, 0, 0, 0, none⟩⟩ := by simpa [cellAt] using hc.symm
  subst this
  exact ⟨rfl, rfl⟩

/-- C33 fails if all the cells of the first row span rows: the height of the row is then 0, the run is undone, and what it showed of the
cells that go on is lost -/
theorem C33_first_row_lost_false : ∃ content : List (List (Option (Cell Str Unit))), SpansOk content ∧ CellStylesOk (cellsTable content 1) ∧
    cellsShown content 1 [30, 60] = .ok (c!"cd", true) ∧ cellAtoms (fun c => c) content 0 0 = c!"abcd" := by
  refine ⟨[[some ⟨some c!"abcd", 0, 1, cellsStyle⟩], [none]], ?_, ⟨fun _ _ _ => by norm_num [cellsTable], by norm_num [cellsTable, cellsStyle], ?_⟩, by decide +kernel, rfl⟩
  · intro i j c hc i' j' h1 h2 h3 h4 h5
    have h0 : i = 0 ∧ j = 0 := by
      unfold cellAt at hc
      rcases i with _ | _ | i <;> rcases j with _ | j <;> simp at hc ⊢
    obtain ⟨rfl, rfl⟩ := h0
    have : c = ⟨some c!"abcd", 0, 1, cellsStyle⟩ := by simpa [cellAt] using hc.symm
    subst this
    simp only at h2 h4
    have hj : j' = 0 := by omega
    have hi : i' = 1 := by
      have : i' ≠ 0 := by rintro rfl; exact h5 (by rw [hj])
      omega
    subst hi hj
    rfl
  · intro i j c hc
    have h0 : i = 0 ∧ j = 0 := by
      unfold cellAt cellsTable at hc
      rcases i with _ | _ | i <;> rcases j with _ | j <;> simp at hc ⊢
    obtain ⟨rfl, rfl⟩ := h0
    have : c = ⟨some c!"abcd", 0, 1, cellsStyle⟩ := by simpa [cellAt, cellsTable] using hc.symm
    subst this
    norm_num [cellsStyle]

/-- C33 fails for what is in the positions of a merged cell when the page breaks inside it: `X` is under the row span of `a`; in one
rectangle it is skipped, but if the first row is interrupted the span is forgotten and `X` is shown -/
theorem C33_after_break_false :
    let content := [[some ⟨some c!"a", 0, 1, cellsStyle⟩, plainCell c!"bcd"], [plainCell c!"X", plainCell c!"e"]]
    cellsShown content 2 [90] = .ok (c!"abcde", true) ∧ cellsShown content 2 [25, 60] = .ok (c!"abcdXe", true) := by
  decide +kernel

/-- a cell without any content key (`{'style': …}`) is never finished, nor is its table -/
theorem C29_no_content_false (rects : List (Rat × Rat × Rat × Rat)) (x y w h : Rat) (ps : List Str) (s : TS Str Str Unit Unit)
    (hr : (TS.new x y w h).runs (cellsTable [[some ⟨none, 0, 0, cellsStyle⟩]] 1) rects = .ok (ps, s)) : s.finished = false := by
  -- the delayed cell never goes away
  have cell : ∀ (s s' : TS Str Str Unit Unit) (el : RowEl Str Unit) (dl : Bool), s.colspan = 0 → s.rowspan = [] →
      ((cellsTable [[some ⟨none, 0, 0, cellsStyle⟩]] 1).element s.index el).content = none →
      ((cellsTable [[some ⟨none, 0, 0, cellsStyle⟩]] 1).element s.index el).rowsLeft s.index ≤ 0 →
      s.addCell (cellsTable [[some ⟨none, 0, 0, cellsStyle⟩]] 1) 0 el dl = .ok s' →
      s'.rowspan = [] ∧ dget 0 s'.delayed = some ((cellsTable [[some ⟨none, 0, 0, cellsStyle⟩]] 1).element s.index el) ∧ CellFrame s s' := by
    intro s s' el dl hc hr hn hl h
    rcases addCell_cases h with ⟨hsp, -⟩ | ⟨-, hs⟩
    · unfold TS.spans at hsp
      rw [hr] at hsp
      simp [dget, hc] at hsp
    · obtain ⟨hh, b, hf, -⟩ := hs.content
      refine ⟨by rw [hs.rowspan, if_neg (not_lt.2 hl), hr], ?_, hs.frame⟩
      cases hf with
      | empty _ _ hd => rw [hd, dget_dset_self]
      | run hc' => rw [hn] at hc'; cases hc'
  have row : ∀ (s s' : TS Str Str Unit Unit) (el : RowEl Str Unit) (dl : Bool) (act : RowAct), s.rowspan = [] →
      ((cellsTable [[some ⟨none, 0, 0, cellsStyle⟩]] 1).element s.index el).content = none →
      ((cellsTable [[some ⟨none, 0, 0, cellsStyle⟩]] 1).element s.index el).rowsLeft s.index ≤ 0 →
      s.addRow (cellsTable [[some ⟨none, 0, 0, cellsStyle⟩]] 1) [el] dl = .ok (act, s') →
      dget 0 s'.delayed = some ((cellsTable [[some ⟨none, 0, 0, cellsStyle⟩]] 1).element s.index el) ∧ s'.index = s.index ∧
      s'.finished = s.finished ∧ act ≠ .continue := by
    intro s s' el dl act hr hn hl h
    obtain ⟨-, s0, s1, e1, e2, -, -, e4', -, -, -, -, g1, f1, f1', -, -, f4⟩ := addRow_unfold h
    simp only [TS.addCells] at g1
    split at g1
    · cases g1
    · rename_i s2 hs2
      cases g1
      obtain ⟨c1, c2, c3⟩ := cell s0 s1 el dl e2 (by rw [e1.rowspan, hr]) (by rw [e1.index]; exact hn) (by rw [e1.index]; exact hl) hs2
      rw [e1.index] at c2
      refine ⟨by rw [f1.delayed]; exact c2, by rw [f1.index, c3.index, e1.index], by rw [f1', c3.finished, e4'], ?_⟩
      rintro rfl
      have := ((f4 (by simp)).1).1 rfl
      obtain ⟨q, hq⟩ := canGoOn_pending this 0 _ (by rw [f1.delayed]; exact c2)
      rw [f1.rowspan, c1] at hq
      cases hq
  have key : ∀ (rects : List (Rat × Rat × Rat × Rat)) (s s' : TS Str Str Unit Unit) (ps : List Str), s.index = 0 → s.finished = false →
      (s.delayed = [] ∨ ∃ d, dget 0 s.delayed = some d ∧ d.content = none ∧ d.rows = 0 ∧ d.row = 0) →
      s.runs (cellsTable [[some ⟨none, 0, 0, cellsStyle⟩]] 1) rects = .ok (ps, s') → s'.finished = false := by
    intro rects
    induction rects with
    | nil =>
      intro s s' ps h1 h2 h3 h
      cases h
      exact h2
    | cons q rects ih =>
      intro s s' ps h1 h2 h3 h
      obtain ⟨x, y, w, hh⟩ := q
      simp only [TS.runs] at h
      split at h
      · cases h
      · rename_i s1 hs1
        split at h
        · cases h
        · rename_i ps' s2 hs2
          cases h
          have fin : ∀ (s3 : TS Str Str Unit Unit) d, dget 0 s3.delayed = some d → d.content = none → d.rows = 0 → d.row = 0 → s3.index = 0 →
              s3.finished = false → s1.index = s3.index → s1.delayed = s3.delayed →
              (s1.finished = (s3.finished || (decide ((cellsTable [[some ⟨none, 0, 0, cellsStyle⟩]] 1).content.length ≤ s3.index) && s3.delayed.isEmpty)) ∨ s1.finished = s3.finished) →
              s'.finished = false := by
            intro s3 d a1 a2 a3 a4 a5 a6 a7 a8 a9
            refine ih s1 s' ps' (a7.trans a5) ?_ (Or.inr ⟨d, by rw [a8]; exact a1, a2, a3, a4⟩) hs2
            rcases a9 with a9 | a9
            · rw [a9, a6, a5]; rfl
            · rw [a9, a6]
          unfold TS.run TS.addLate at hs1
          rcases h3 with h3 | ⟨d, hd, d1, d2, d3⟩
          · have e1 : (s.clear (cellsTable [[some ⟨none, 0, 0, cellsStyle⟩]] 1) x y w hh).delayed.isEmpty = true := by show s.delayed.isEmpty = true; simp [h3]
            have e2 : (s.clear (cellsTable [[some ⟨none, 0, 0, cellsStyle⟩]] 1) x y w hh).index = 0 := h1
            rw [if_pos e1] at hs1
            simp only [e2, List.drop_zero] at hs1
            have e3 : (cellsTable [[some ⟨none, 0, 0, cellsStyle⟩]] 1).content = [[some ⟨none, 0, 0, cellsStyle⟩]] := rfl
            rw [e3] at hs1
            simp only [TS.addRows, List.map_cons, List.map_nil] at hs1
            cases hrow : (s.clear (cellsTable [[some ⟨none, 0, 0, cellsStyle⟩]] 1) x y w hh).addRow (cellsTable [[some ⟨none, 0, 0, cellsStyle⟩]] 1)
              [.cell (some ⟨none, 0, 0, cellsStyle⟩)] false with
            | error e => rw [hrow] at hs1; cases hs1
            | ok q =>
              obtain ⟨act, s3⟩ := q
              rw [hrow] at hs1
              obtain ⟨r1, r2, r3, r4⟩ := row _ s3 _ false act rfl rfl (by simp [TConf.element, Delayed.rowsLeft]) hrow
              rw [e2] at r1 r2
              have r3' : s3.finished = false := r3.trans h2
              cases act with
              | cancel =>
                simp only [Except.ok.injEq] at hs1
                subst hs1
                exact fin s3 _ r1 rfl rfl rfl r2 r3' rfl rfl (Or.inr rfl)
              | interrupt =>
                simp only [Except.ok.injEq] at hs1
                subst hs1
                obtain ⟨b1, b2, b3⟩ := close_same (cellsTable [[some ⟨none, 0, 0, cellsStyle⟩]] 1) s3
                exact fin s3 _ r1 rfl rfl rfl r2 r3' b1.index b1.delayed (Or.inl b3)
              | «continue» => exact absurd rfl r4
          · have e1 : (s.clear (cellsTable [[some ⟨none, 0, 0, cellsStyle⟩]] 1) x y w hh).delayed.isEmpty = false := by
              show s.delayed.isEmpty = false
              cases hdd : s.delayed with
              | nil => rw [hdd] at hd; cases hd
              | cons => rfl
            rw [if_neg (by simp [e1])] at hs1
            have e2 : (s.clear (cellsTable [[some ⟨none, 0, 0, cellsStyle⟩]] 1) x y w hh).index = 0 := h1
            have e3 : (List.range (cellsTable [[some ⟨none, 0, 0, cellsStyle⟩]] 1).cols).map (fun i => RowEl.late (dget i (s.clear (cellsTable [[some ⟨none, 0, 0, cellsStyle⟩]] 1) x y w hh).delayed)) = [RowEl.late (some d)] := by
              show [RowEl.late (dget 0 s.delayed)] = _
              rw [hd]
            rw [e3] at hs1
            cases hrow : (s.clear (cellsTable [[some ⟨none, 0, 0, cellsStyle⟩]] 1) x y w hh).addRow (cellsTable [[some ⟨none, 0, 0, cellsStyle⟩]] 1) [.late (some d)] true with
            | error e => rw [hrow] at hs1; cases hs1
            | ok q =>
              obtain ⟨act, s3⟩ := q
              rw [hrow] at hs1
              obtain ⟨r1, r2, r3, r4⟩ := row _ s3 _ true act rfl (by simp [TConf.element, d1]) (by rw [e2]; simp [TConf.element, d1, Delayed.rowsLeft, d2, d3]) hrow
              rw [e2] at r1 r2
              have r3' : s3.finished = false := r3.trans h2
              have l1 : ((cellsTable [[some ⟨none, 0, 0, cellsStyle⟩]] 1).element 0 (.late (some d))).content = none := by simp [TConf.element, d1]
              have l2 : ((cellsTable [[some ⟨none, 0, 0, cellsStyle⟩]] 1).element 0 (.late (some d))).rows = 0 := by simp [TConf.element, d1, d2]
              have l3 : ((cellsTable [[some ⟨none, 0, 0, cellsStyle⟩]] 1).element 0 (.late (some d))).row = 0 := by simp [TConf.element, d1, d3]
              obtain ⟨b1, b2, b3⟩ := close_same (cellsTable [[some ⟨none, 0, 0, cellsStyle⟩]] 1) s3
              cases act with
              | cancel =>
                simp only [Except.ok.injEq] at hs1
                subst hs1
                exact fin s3 _ r1 l1 l2 l3 r2 r3' b1.index b1.delayed (Or.inl b3)
              | interrupt =>
                simp only [Except.ok.injEq] at hs1
                subst hs1
                exact fin s3 _ r1 l1 l2 l3 r2 r3' b1.index b1.delayed (Or.inl b3)
              | «continue» => exact absurd rfl r4
  exact key rects _ s ps rfl rfl (Or.inl rfl) hr

end Verif
