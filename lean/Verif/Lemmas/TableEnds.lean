import Verif.Lemmas.TableCong
import Verif.Model.PdfTable
/-! Why a table comes to an end: a measure that every rectangle makes smaller. -/
namespace Verif
open Spec

variable {σ P B C : Type}

/-- the height of the content of a cell of row `i`, column `j` at the top of a rectangle of height `H` (table.py:586-627) -/
def boxHeight (T : TConf σ P B C) (H : Rat) (i j : Nat) (st : CellStyle C) : Rat :=
  H - ((T.border i j false).width / 2 + st.top + ((T.border (i + 1) j false).width / 2 + st.bottom))

/-- contents that come to an end: in a box that is high enough (`fit`) each run finishes the content or makes it smaller -/
structure Spec.Ends (exec : σ → Rat → Rat → Rat → Rat → Except PyErr (CellOut σ P B C)) (fit : σ → Rat → Rat → Prop) (size : σ → Nat) : Prop where
  shrink : ∀ c x y w h o, fit c w h → exec c x y w h = .ok o → o.finished = false → size o.next < size c
  keep : ∀ c x y w h o w' h', fit c w' h' → exec c x y w h = .ok o → fit o.next w' h'

/-- a cell without row span whose content fits a page, wherever it is continued -/
structure CellEnds (T : TConf σ P B C) (fit : σ → Rat → Rat → Prop) (size : σ → Nat) (Pg : List (Rat × Rat)) (i j : Nat) (c : Cell σ C) : Prop where
  rows : c.rows = 0
  content : ∃ x, c.content = some x ∧ (∀ q ∈ Pg, fit x (boxWidth T q.1 i j c.cols c.style) (boxHeight T q.2 i j c.style)) ∧
    ∀ a b w h o, T.exec x a b w h = .ok o → size o.next ≤ size x

/-- what is asked of a table -/
structure TableEnds (T : TConf σ P B C) (fit : σ → Rat → Rat → Prop) (size : σ → Nat) (Pg : List (Rat × Rat)) : Prop where
  ends : Ends T.exec fit size
  cols : T.cols ≠ 0
  cells : ∀ i j c, cellAt T.content i j = some c → CellEnds T fit size Pg i j c
  blankFit : ∀ i j, ∀ q ∈ Pg, fit T.blank (boxWidth T q.1 i j 0 T.style) (boxHeight T q.2 i j T.style)
  blankEnds : ∀ x y w h o, fit T.blank w h → T.exec T.blank x y w h = .ok o → o.finished = true
  blankFirst : ∀ x y w h o, T.exec T.blank x y w h = .ok o → size o.next ≤ size T.blank

section
variable {T : TConf σ P B C} {fit : σ → Rat → Rat → Prop} {size : σ → Nat} {Pg : List (Rat × Rat)}

/-- a delayed cell -/
structure LateEnds (T : TConf σ P B C) (fit : σ → Rat → Rat → Prop) (Pg : List (Rat × Rat)) (i j : Nat) (d : Delayed σ C) : Prop where
  rows : d.rows = 0
  row : d.row = i
  content : ∃ x, d.content = some x ∧ ∀ q ∈ Pg, fit x (boxWidth T q.1 i j d.cols d.style) (boxHeight T q.2 i j d.style)

/-- the size of a delayed cell -/
def lateSize (size : σ → Nat) : Option (Delayed σ C) → Nat
  | none => 0
  | some d => match d.content with
    | none => 0
    | some x => size x + 1

/-- the size of a cell of a row -/
def elSize (size : σ → Nat) (blank : σ) : Option (Cell σ C) → Nat
  | none => size blank + 1
  | some c => match c.content with
    | none => 0
    | some x => size x + 1

/-- one cell -/
theorem addCell_ends [DecidableEq B] {s s' : TS σ P B C} {col : Nat} {el : RowEl σ C} {dl : Bool}
    (hr : s.rowspan = []) (he : LateEnds T fit Pg s.index col (T.element s.index el)) (h : s.addCell T col el dl = .ok s') :
    s'.rowspan = [] ∧ CellFrame s s' ∧ (∀ c, c ≠ col → dget c s'.delayed = dget c s.delayed) ∧
    ((0 < s.colspan ∧ dget col s'.delayed = dget col s.delayed) ∨
     (s.colspan = 0 ∧ s'.colspan = (T.element s.index el).cols ∧ ∃ x a b o, (T.element s.index el).content = some x ∧
      T.exec x a b (boxWidth T s.width s.index col (T.element s.index el).cols (T.element s.index el).style)
        (boxHeight T s.rowMax s.index col (T.element s.index el).style) = .ok o ∧
      dget col s'.delayed = if o.finished then none else some { T.element s.index el with content := some o.next })) := by
  rcases addCell_cases h with ⟨hsp, hk⟩ | ⟨hsp, hk⟩
  · unfold TS.spans at hsp
    rw [hr] at hsp
    have hc : 0 < s.colspan := by simpa [dget] using hsp
    obtain ⟨k1, k2, -⟩ := hk.none (by rw [hr]; rfl)
    exact ⟨by rw [k1, hr], hk.frame, fun c _ => by rw [hk.delayed], Or.inl ⟨hc, by rw [hk.delayed]⟩⟩
  · unfold TS.spans at hsp
    rw [hr] at hsp
    have hc : s.colspan = 0 := by simpa [dget] using hsp
    obtain ⟨hh, b, hf, ⟨hw1, hw2⟩, hb1, hb2, -, -⟩ := hk.content
    have hrl : (T.element s.index el).rowsLeft s.index = 0 := by simp [Delayed.rowsLeft, he.rows, he.row]
    obtain ⟨x, hx, -⟩ := he.content
    cases hf with
    | empty hn => rw [hx] at hn; cases hn
    | @run c o hc' hex hp hd =>
      rw [hx] at hc'
      cases hc'
      refine ⟨by rw [hk.rowspan, if_neg (by rw [hrl]; simp), hr], hk.frame, ?_, Or.inr ⟨hc, hk.colspan, x, b.x, b.y, o, hx, ?_, ?_⟩⟩
      · intro c hne
        rw [hd]
        split
        · rw [dget_ddrop, if_neg hne]
        · rw [dget_dset_ne (Ne.symm hne)]
      · rw [hrl, add_zero] at hb2
        rw [← hex, hw1, hw2, hb1, hb2]
        rfl
      · rw [hd]
        split
        · rw [dget_ddrop, if_pos rfl]
        · rw [dget_dset_self]

/-- the cells of a new row -/
theorem addCells_new [DecidableEq B] (H : TableEnds T fit size Pg) (l : List (Option (Cell σ C))) {col : Nat} {s s' : TS σ P B C} (hr : s.rowspan = [])
    (hl : ∀ (k : Nat) c, l[k]? = some (some c) → CellEnds T fit size Pg s.index (col + k) c) (hd : ∀ c, col ≤ c → dget c s.delayed = none)
    (h : s.addCells T false col (l.map .cell) = .ok s') :
    s'.rowspan = [] ∧ CellFrame s s' ∧ (∀ c, c < col → dget c s'.delayed = dget c s.delayed) ∧ (∀ c, col + l.length ≤ c → dget c s'.delayed = none) ∧
    (∀ c d, col ≤ c → dget c s'.delayed = some d → LateEnds T fit Pg s.index c d) ∧
    ((List.range' col l.length).map fun c => lateSize size (dget c s'.delayed)).sum ≤ (l.map (elSize size T.blank)).sum := by
  induction l generalizing col s with
  | nil =>
    cases h
    refine ⟨hr, CellFrame.refl _, fun _ _ => rfl, fun c hc => hd c (by simpa using hc), fun c d hc hcd => ?_, by simp⟩
    rw [hd c hc] at hcd
    cases hcd
  | cons el l ih =>
    simp only [List.map_cons, TS.addCells] at h
    cases h1 : s.addCell T col (.cell el) false with
    | error e => rw [h1] at h; cases h
    | ok s1 =>
      rw [h1] at h
      have hel : LateEnds T fit Pg s.index col (T.element s.index (.cell el)) ∧
          ∀ x, (T.element s.index (.cell el)).content = some x → elSize size T.blank el = size x + 1 ∧
            ∀ a b w h o, T.exec x a b w h = .ok o → size o.next ≤ size x := by
        cases el with
        | none =>
          refine ⟨⟨rfl, rfl, T.blank, rfl, fun q hq => H.blankFit _ _ q hq⟩, fun x hx => ?_⟩
          cases hx
          exact ⟨rfl, H.blankFirst⟩
        | some c =>
          have hc := hl 0 c rfl
          obtain ⟨x, hx, h2, h3⟩ := hc.content
          refine ⟨⟨hc.rows, rfl, x, hx, h2⟩, fun x' hx' => ?_⟩
          have : x' = x := by
            have e : c.content = some x' := hx'
            rw [hx] at e
            exact (Option.some.inj e).symm
          subst this
          exact ⟨by simp [elSize, hx], h3⟩
      obtain ⟨a1, a2, a3, a4⟩ := addCell_ends hr hel.1 h1
      obtain ⟨b1, b2, b3, b4, b5, b6⟩ := ih (col := col + 1) (s := s1) a1
        (by
          intro k c hk
          have := hl (k + 1) c (by simpa using hk)
          rw [a2.index, show col + 1 + k = col + (k + 1) by omega]
          exact this)
        (by intro c hc; rw [a3 c (by omega)]; exact hd c (by omega)) h
      have hcol : dget col s'.delayed = dget col s1.delayed := b3 col (by omega)
      have hbound : lateSize size (dget col s'.delayed) ≤ elSize size T.blank el ∧ ∀ d, dget col s'.delayed = some d → LateEnds T fit Pg s.index col d := by
        rw [hcol]
        rcases a4 with ⟨-, a4⟩ | ⟨-, -, x, a, b, o, hx, hex, hdo⟩
        · rw [a4, hd col (le_refl _)]
          exact ⟨Nat.zero_le _, fun d hd => by cases hd⟩
        · rw [hdo]
          cases hfin : o.finished with
          | true => simp [lateSize]
          | false =>
            simp only [Bool.false_eq_true, if_false, Option.some.injEq]
            obtain ⟨h2, h3⟩ := hel.2 x hx
            refine ⟨?_, ?_⟩
            · rw [h2]
              have := h3 _ _ _ _ _ hex
              simp only [lateSize]
              omega
            · rintro d rfl
              obtain ⟨x', hx', hfit⟩ := hel.1.content
              have : x' = x := by rw [hx] at hx'; exact (Option.some.inj hx').symm
              subst this
              exact ⟨hel.1.rows, hel.1.row, o.next, rfl, fun q hq => H.ends.keep _ _ _ _ _ _ _ _ (hfit q hq) hex⟩
      refine ⟨b1, a2.trans b2, ?_, ?_, ?_, ?_⟩
      · intro c hc
        rw [b3 c (by omega), a3 c (by omega)]
      · intro c hc
        exact b4 c (by simp only [List.length_cons] at hc; omega)
      · intro c d hc hcd
        by_cases hcc : c = col
        · subst hcc; exact hbound.2 d hcd
        · have := b5 c d (by omega) hcd
          rwa [a2.index] at this
      · simp only [List.length_cons, List.range'_succ, List.map_cons, List.sum_cons]
        have := hbound.1
        omega

/-- the cells of a delayed row -/
theorem addCells_late [DecidableEq B] (H : TableEnds T fit size Pg) (n : Nat) {col : Nat} {s s' : TS σ P B C} {d0 : List (Nat × Delayed σ C)} (hr : s.rowspan = [])
    (hq : (s.width, s.rowMax) ∈ Pg) (h0 : ∀ c d, dget c d0 = some d → LateEnds T fit Pg s.index c d) (hd : ∀ c, col ≤ c → dget c s.delayed = dget c d0)
    (h : s.addCells T true col ((List.range' col n).map fun i => .late (dget i d0)) = .ok s') :
    s'.rowspan = [] ∧ CellFrame s s' ∧ (∀ c, c < col → dget c s'.delayed = dget c s.delayed) ∧ (∀ c, col + n ≤ c → dget c s'.delayed = dget c d0) ∧
    (∀ c d, col ≤ c → dget c s'.delayed = some d → LateEnds T fit Pg s.index c d) ∧
    ((List.range' col n).map fun c => lateSize size (dget c s'.delayed)).sum ≤ ((List.range' col n).map fun c => lateSize size (dget c d0)).sum ∧
    (s.colspan = 0 → (∃ c d, col ≤ c ∧ c < col + n ∧ dget c d0 = some d) →
      ((List.range' col n).map fun c => lateSize size (dget c s'.delayed)).sum < ((List.range' col n).map fun c => lateSize size (dget c d0)).sum) := by
  induction n generalizing col s with
  | zero =>
    cases h
    refine ⟨hr, CellFrame.refl _, fun _ _ => rfl, fun c hc => hd c (by omega), fun c d hc hcd => h0 c d (by rw [← hd c hc]; exact hcd), by simp, ?_⟩
    rintro - ⟨c, d, h1, h2, -⟩
    omega
  | succ n ih =>
    simp only [List.range'_succ, List.map_cons, TS.addCells] at h
    cases h1 : s.addCell T col (.late (dget col d0)) true with
    | error e => rw [h1] at h; cases h
    | ok s1 =>
      rw [h1] at h
      have hel : LateEnds T fit Pg s.index col (T.element s.index (.late (dget col d0))) := by
        cases hg : dget col d0 with
        | none => exact ⟨rfl, rfl, T.blank, rfl, fun q hq => H.blankFit _ _ q hq⟩
        | some d =>
          have := h0 col d hg
          obtain ⟨x, hx, -⟩ := this.content
          have e : T.element s.index (.late (some d)) = d := by simp [TConf.element, hx]
          rw [e]
          exact this
      obtain ⟨a1, a2, a3, a4⟩ := addCell_ends hr hel h1
      obtain ⟨b1, b2, b3, b4, b5, b6, b7⟩ := ih (col := col + 1) (s := s1) a1 (by rw [a2.width, a2.rowMax]; exact hq) (by rw [a2.index]; exact h0)
        (by intro c hc; rw [a3 c (by omega)]; exact hd c (by omega)) h
      have hcol : dget col s'.delayed = dget col s1.delayed := b3 col (by omega)
      -- what happens at this column
      have hbound : lateSize size (dget col s'.delayed) ≤ lateSize size (dget col d0) ∧
          (∀ d, dget col s'.delayed = some d → LateEnds T fit Pg s.index col d) ∧
          (s.colspan = 0 → (dget col d0 = none → s1.colspan = 0) ∧
            ((∃ d, dget col d0 = some d) → lateSize size (dget col s'.delayed) < lateSize size (dget col d0))) := by
        rw [hcol]
        rcases a4 with ⟨a4, a5⟩ | ⟨hcs, hcs', x, a, b, o, hx, hex, hdo⟩
        · rw [a5, hd col (le_refl _)]
          exact ⟨le_refl _, fun d hd => h0 col d hd, fun h => by omega⟩
        · rw [hdo]
          obtain ⟨x', hx', hfit⟩ := hel.content
          have : x' = x := by rw [hx] at hx'; exact (Option.some.inj hx').symm
          subst this
          have hf := hfit _ hq
          cases hg : dget col d0 with
          | none =>
            rw [hg] at hx hex hf hcs'
            simp only [TConf.element, Option.some.injEq] at hx
            subst hx
            have := H.blankEnds _ _ _ _ _ hf hex
            simp only [this, if_true, lateSize]
            refine ⟨le_refl _, fun d hd => (by cases hd), fun _ => ⟨fun _ => ?_, fun ⟨d, hd⟩ => (by cases hd)⟩⟩
            rw [hcs']
            rfl
          | some d =>
            have hde := h0 col d hg
            obtain ⟨y, hy, hyfit⟩ := hde.content
            have e : T.element s.index (.late (some d)) = d := by simp [TConf.element, hy]
            rw [hg, e] at hx hex hf
            rw [hy] at hx
            cases hx
            have hlt : lateSize size (if o.finished = true then none else some { T.element s.index (.late (some d)) with content := some o.next }) < lateSize size (some d) := by
              cases hfin : o.finished with
              | true => simp [lateSize, hy]
              | false =>
                have := H.ends.shrink _ _ _ _ _ _ hf hex hfin
                simp only [Bool.false_eq_true, if_false, lateSize, hy]
                omega
            refine ⟨le_of_lt hlt, ?_, fun _ => ⟨fun h => by simp at h, fun _ => hlt⟩⟩
            intro d' hd'
            split at hd'
            · cases hd'
            · cases hd'
              rw [e]
              exact ⟨hde.rows, hde.row, o.next, rfl, fun q hq => H.ends.keep _ _ _ _ _ _ _ _ (hyfit q hq) hex⟩
      refine ⟨b1, a2.trans b2, ?_, ?_, ?_, ?_, ?_⟩
      · intro c hc
        rw [b3 c (by omega), a3 c (by omega)]
      · intro c hc
        exact b4 c (by omega)
      · intro c d hc hcd
        by_cases hcc : c = col
        · subst hcc; exact hbound.2.1 d hcd
        · have := b5 c d (by omega) hcd
          rwa [a2.index] at this
      · simp only [List.range'_succ, List.map_cons, List.sum_cons]
        have := hbound.1
        omega
      · intro hcs hex
        simp only [List.range'_succ, List.map_cons, List.sum_cons]
        obtain ⟨k1, k2⟩ := hbound.2.2 hcs
        cases hg : dget col d0 with
        | some d =>
          have := k2 ⟨d, hg⟩
          rw [hg] at this
          omega
        | none =>
          obtain ⟨c, d, c1, c2, c3⟩ := hex
          have hne : c ≠ col := by rintro rfl; rw [hg] at c3; cases c3
          have := b7 (k1 hg) ⟨c, d, by omega, by omega, c3⟩
          have h3 := hbound.1
          rw [hg] at h3
          omega

/-! ### the measure -/

/-- the size of a row -/
def rowSize (size : σ → Nat) (blank : σ) (row : List (Option (Cell σ C))) : Nat := 1 + (row.map (elSize size blank)).sum

/-- the size of the rows from `i` on -/
def rowsFrom (T : TConf σ P B C) (size : σ → Nat) (i : Nat) : Nat := ((T.content.drop i).map (rowSize size T.blank)).sum

/-- the size of the delayed cells -/
def lateSum (T : TConf σ P B C) (size : σ → Nat) (s : TS σ P B C) : Nat := ((List.range T.cols).map fun c => lateSize size (dget c s.delayed)).sum

/-- what is left of a table -/
def leftSize (T : TConf σ P B C) (size : σ → Nat) (s : TS σ P B C) : Nat :=
  if s.delayed.isEmpty then rowsFrom T size s.index + (if s.firstRow then 1 else 0) else rowsFrom T size (s.index + 1) + lateSum T size s

/-- between two runs -/
structure EndInv (T : TConf σ P B C) (fit : σ → Rat → Rat → Prop) (Pg : List (Rat × Rat)) (s : TS σ P B C) : Prop where
  late : ∀ c d, dget c s.delayed = some d → c < T.cols ∧ LateEnds T fit Pg s.index c d
  first : s.delayed ≠ [] → s.firstRow = false

theorem rowsFrom_cons {T : TConf σ P B C} {size : σ → Nat} {i : Nat} {row : List (Option (Cell σ C))} {l : List (List (Option (Cell σ C)))}
    (h : T.content.drop i = row :: l) : rowsFrom T size i = rowSize size T.blank row + rowsFrom T size (i + 1) ∧ T.content.drop (i + 1) = l := by
  have h2 : T.content.drop (i + 1) = l := by rw [← List.tail_drop, h]; rfl
  unfold rowsFrom
  rw [h, h2]
  simp

theorem leftSize_of_late {s : TS σ P B C} (h : s.delayed ≠ []) : leftSize T size s = rowsFrom T size (s.index + 1) + lateSum T size s := by
  unfold leftSize
  rw [if_neg (by simpa using h)]

theorem leftSize_of_nil {s : TS σ P B C} (h : s.delayed = []) : leftSize T size s = rowsFrom T size s.index + (if s.firstRow then 1 else 0) := by
  unfold leftSize
  rw [if_pos (by simp [h])]

/-- the rows -/
theorem addRows_ends [DecidableEq B] (H : TableEnds T fit size Pg) (l : List (List (Option (Cell σ C)))) {s s' : TS σ P B C} (hl : T.content.drop s.index = l)
    (hr : s.rowspan = []) (hd : s.delayed = []) {cn : Bool} (h : s.addRows T l = .ok (cn, s')) :
    EndInv T fit Pg s' ∧ s'.finished = s.finished ∧
      ((cn = false ∧ s'.delayed = [] ∧ T.content.length ≤ s'.index ∧ leftSize T size s' ≤ leftSize T size s) ∨ leftSize T size s' < leftSize T size s) := by
  induction l generalizing s with
  | nil =>
    cases h
    refine ⟨⟨fun c d hcd => (by rw [hd] at hcd; cases hcd), fun h => absurd hd h⟩, rfl, Or.inl ⟨rfl, hd, ?_, le_refl _⟩⟩
    exact List.drop_eq_nil_iff.1 hl
  | cons row l ih =>
    obtain ⟨q1, q2⟩ := rowsFrom_cons (size := size) hl
    simp only [TS.addRows] at h
    cases h1 : s.addRow T (row.map .cell) false with
    | error e => rw [h1] at h; cases h
    | ok q =>
      obtain ⟨act, s1⟩ := q
      rw [h1] at h
      obtain ⟨hlen, s0, s2, e1, e2, e3, e4, e4', e5, e6, e7, -, g1, f1, f1', f2, f3, f4⟩ := addRow_unfold h1
      have hrow : T.content[s.index]? = some row := by
        have : (T.content.drop s.index)[0]? = some row := by rw [hl]; rfl
        simpa using this
      obtain ⟨b1, b2, b3, b4, b5, b6⟩ := addCells_new H row (col := 0) (s := s0) (by rw [e1.rowspan, hr])
        (by
          intro k c hk
          rw [e1.index, Nat.zero_add]
          exact H.cells s.index k c (by unfold cellAt; rw [hrow, Option.bind_some, hk]; rfl))
        (by intro c _; rw [e1.delayed, hd]; rfl) g1
      have hlen' : row.length = T.cols := by simpa using hlen
      rw [hlen'] at b4 b6
      have hi1 : s1.index = s.index := by rw [f1.index, b2.index, e1.index]
      have hinv : EndInv T fit Pg s1 := by
        refine ⟨fun c d hcd => ?_, fun _ => f2⟩
        rw [f1.delayed] at hcd
        have hc : c < T.cols := by
          by_contra hcon
          rw [b4 c (by omega)] at hcd
          cases hcd
        have := b5 c d (by omega) hcd
        rw [e1.index, ← hi1] at this
        exact ⟨hc, this⟩
      have hsum : lateSum T size s1 ≤ (row.map (elSize size T.blank)).sum := by
        unfold lateSum
        rw [f1.delayed, List.range_eq_range']
        exact b6
      have hfin : s1.finished = s.finished := by rw [f1', b2.finished, e4']
      have hbase := leftSize_of_nil (T := T) (size := size) hd
      have hstop : s1.delayed ≠ [] → leftSize T size s1 < leftSize T size s := by
        intro hne
        rw [leftSize_of_late hne, hbase, hi1, q1]
        unfold rowSize
        omega
      cases act with
      | cancel =>
        simp only [Except.ok.injEq, Prod.mk.injEq] at h
        obtain ⟨-, rfl⟩ := h
        refine ⟨hinv, hfin, Or.inr ?_⟩
        by_cases hne : s1.delayed = []
        · rw [leftSize_of_nil hne, hbase, f2, hi1]
          have : s.firstRow = true := by rw [← e4, ← b2.firstRow]; exact (f3 rfl).1
          rw [this]
          simp
        · exact hstop hne
      | interrupt =>
        cases h
        refine ⟨hinv, hfin, Or.inr (hstop ?_)⟩
        intro hne
        have := (f4 (by simp)).1
        exact absurd (this.2 (canGoOn_empty H.cols hne)) (by simp)
      | «continue» =>
        have hpend := canGoOn_pending (((f4 (by simp)).1).1 rfl)
        have hrs : s1.rowspan = [] := by rw [f1.rowspan, b1]
        have hd1 : s1.delayed = [] := nil_of_dget fun c => by
          cases hd : dget c s1.delayed with
          | none => rfl
          | some d =>
            obtain ⟨q, hq⟩ := hpend c d hd
            rw [hrs] at hq; cases hq
        simp only at h
        obtain ⟨c1, c2, c3⟩ := ih (s := { s1 with index := s1.index + 1 }) (by show T.content.drop (s1.index + 1) = l; rw [hi1]; exact q2) hrs hd1 h
        have hm : leftSize T size { s1 with index := s1.index + 1 } < leftSize T size s := by
          rw [leftSize_of_nil (s := { s1 with index := s1.index + 1 }) hd1, hbase]
          show rowsFrom T size (s1.index + 1) + (if s1.firstRow then 1 else 0) < _
          rw [f2, hi1, q1]
          unfold rowSize
          simp only [Bool.false_eq_true, if_false]
          omega
        refine ⟨c1, c2.trans hfin, Or.inr ?_⟩
        rcases c3 with ⟨-, -, -, c3⟩ | c3 <;> omega

/-- the delayed row -/
theorem addLate_ends [DecidableEq B] (H : TableEnds T fit size Pg) {s s' : TS σ P B C} (hi : EndInv T fit Pg s) (hr : s.rowspan = []) (hh : s.currentHeight = 0)
    (hq : s.delayed ≠ [] → (s.width, s.height) ∈ Pg) {go : Bool} (h : s.addLate T = .ok (go, s')) :
    EndInv T fit Pg s' ∧ s'.rowspan = [] ∧ s'.finished = s.finished ∧ (go = true → s'.delayed = []) ∧
      ((s.delayed = [] ∧ go = true ∧ s' = s) ∨ leftSize T size s' < leftSize T size s) := by
  unfold TS.addLate at h
  split at h
  · rename_i hd
    cases h
    exact ⟨hi, hr, rfl, fun _ => by simpa using hd, Or.inl ⟨by simpa using hd, rfl, rfl⟩⟩
  · rename_i hd
    have hne : s.delayed ≠ [] := by simpa using hd
    cases h2 : s.addRow T ((List.range T.cols).map fun i => .late (dget i s.delayed)) true with
    | error e => rw [h2] at h; cases h
    | ok q =>
      obtain ⟨act, s2⟩ := q
      rw [h2] at h
      obtain ⟨hlen, s0, s3, e1, e2, e3, e4, e4', e5, e6, e7, -, hwidth, g1, f1, f1', f2, f3, f4⟩ := addRow_unfold_width h2
      rw [List.range_eq_range'] at g1
      obtain ⟨b1, b2, b3, b4, b5, b6, b7⟩ := addCells_late H T.cols (col := 0) (s := s0) (d0 := s.delayed) (by rw [e1.rowspan, hr])
        (by rw [hwidth, e7, hh, sub_zero]; exact hq hne) (by rw [e1.index]; exact fun c d hcd => (hi.late c d hcd).2) (by intro c _; rw [e1.delayed]) g1
      have hi1 : s2.index = s.index := by rw [f1.index, b2.index, e1.index]
      have hinv : EndInv T fit Pg s2 := by
        refine ⟨fun c d hcd => ?_, fun _ => f2⟩
        rw [f1.delayed] at hcd
        have hc : c < T.cols := by
          by_contra hcon
          rw [b4 c (by omega)] at hcd
          exact hcon (hi.late c d hcd).1
        have := b5 c d (by omega) hcd
        rw [e1.index, ← hi1] at this
        exact ⟨hc, this⟩
      have hsome : ∃ c d, 0 ≤ c ∧ c < 0 + T.cols ∧ dget c s.delayed = some d := by
        by_contra hcon
        apply hne
        refine nil_of_dget fun c => ?_
        cases hg : dget c s.delayed with
        | none => rfl
        | some d => exact absurd ⟨c, d, Nat.zero_le _, by have := (hi.late c d hg).1; omega, hg⟩ hcon
      have hlt : lateSum T size s2 < lateSum T size s := by
        unfold lateSum
        rw [f1.delayed, List.range_eq_range']
        exact b7 e2 hsome
      have hfin : s2.finished = s.finished := by rw [f1', b2.finished, e4']
      have hrs : s2.rowspan = [] := by rw [f1.rowspan, b1]
      have hm : s2.delayed ≠ [] → leftSize T size s2 < leftSize T size s := by
        intro hne2
        rw [leftSize_of_late hne2, leftSize_of_late hne, hi1]
        omega
      have hnc : act ≠ .cancel := by
        intro hc
        have := (f3 hc).1
        rw [b2.firstRow, e4, hi.first hne] at this
        cases this
      cases act with
      | cancel => exact absurd rfl hnc
      | interrupt =>
        cases h
        refine ⟨hinv, hrs, hfin, by simp, Or.inr (hm ?_)⟩
        intro hne2
        have := (f4 (by simp)).1
        exact absurd (this.2 (canGoOn_empty H.cols hne2)) (by simp)
      | «continue» =>
        have hpend := canGoOn_pending (((f4 (by simp)).1).1 rfl)
        have hd1 : s2.delayed = [] := nil_of_dget fun c => by
          cases hd : dget c s2.delayed with
          | none => rfl
          | some d =>
            obtain ⟨q, hq⟩ := hpend c d hd
            rw [hrs] at hq; cases hq
        cases h
        refine ⟨⟨fun c d hcd => ?_, fun h => absurd hd1 h⟩, hrs, hfin, fun _ => hd1, Or.inr ?_⟩
        · have : dget c s2.delayed = some d := hcd
          rw [hd1] at this; cases this
        · rw [leftSize_of_nil (s := { s2 with index := s2.index + 1 }) hd1, leftSize_of_late hne]
          show rowsFrom T size (s2.index + 1) + (if s2.firstRow then 1 else 0) < _
          rw [f2, hi1]
          simp only [Bool.false_eq_true, if_false]
          omega

theorem EndInv.same {s s' : TS σ P B C} (hi : EndInv T fit Pg s) (h : SameCells s s') (hf : s'.firstRow = s.firstRow) :
    EndInv T fit Pg s' ∧ leftSize T size s' = leftSize T size s := by
  refine ⟨⟨fun c d hcd => ?_, fun hne => ?_⟩, ?_⟩
  · rw [h.delayed] at hcd
    rw [h.index]
    exact hi.late c d hcd
  · rw [hf]
    exact hi.first (by rw [← h.delayed]; exact hne)
  · unfold leftSize lateSum
    rw [h.delayed, h.index, hf]

/-- a rectangle finishes the table or leaves less of it -/
theorem tableRun_ends [DecidableEq B] (H : TableEnds T fit size Pg) {s s' : TS σ P B C} (hi : EndInv T fit Pg s) {x y w h : Rat}
    (hq : s.delayed ≠ [] → (w, h) ∈ Pg) (hr : s.run T x y w h = .ok s') :
    EndInv T fit Pg s' ∧ (s'.finished = true ∨ leftSize T size s' < leftSize T size s) := by
  unfold TS.run at hr
  have hi0 : EndInv T fit Pg (s.clear T x y w h) := ⟨hi.late, hi.first⟩
  have hm0 : leftSize T size (s.clear T x y w h) = leftSize T size s := rfl
  cases h1 : (s.clear T x y w h).addLate T with
  | error e => rw [h1] at hr; cases hr
  | ok q =>
    obtain ⟨go, s1⟩ := q
    rw [h1] at hr
    obtain ⟨a1, a2, a3, a4, a5⟩ := addLate_ends H hi0 rfl rfl hq h1
    rw [hm0] at a5
    cases go with
    | false =>
      cases hr
      obtain ⟨b1, b2, b3⟩ := close_same T s1
      obtain ⟨c1, c2⟩ := a1.same (size := size) b1 b2
      refine ⟨c1, Or.inr ?_⟩
      rw [c2]
      rcases a5 with ⟨-, a5, -⟩ | a5
      · cases a5
      · exact a5
    | true =>
      have hle : leftSize T size s1 ≤ leftSize T size s := by
        rcases a5 with ⟨-, -, a5⟩ | a5
        · rw [a5, hm0]
        · omega
      simp only at hr
      cases h2 : s1.addRows T (T.content.drop s1.index) with
      | error e => rw [h2] at hr; cases hr
      | ok q =>
        obtain ⟨cn, s2⟩ := q
        rw [h2] at hr
        obtain ⟨b1, b2, b3⟩ := addRows_ends H _ rfl a2 (a4 rfl) h2
        cases cn with
        | true =>
          cases hr
          refine ⟨⟨b1.late, b1.first⟩, Or.inr ?_⟩
          have : leftSize T size { s2 with parts := [], lines := [], fills := [] } = leftSize T size s2 := rfl
          rw [this]
          rcases b3 with ⟨b3, -⟩ | b3
          · cases b3
          · omega
        | false =>
          cases hr
          obtain ⟨c1, c2, c3⟩ := close_same T s2
          obtain ⟨d1, d2⟩ := b1.same (size := size) c1 c2
          refine ⟨d1, ?_⟩
          rcases b3 with ⟨-, b3, b4, -⟩ | b3
          · left
            rw [c3, b3]
            simp [b4]
          · right
            rw [d2]
            omega

/-- as many pages as the measure are enough -/
theorem pages_ends [DecidableEq B] (H : TableEnds T fit size Pg) (l : List (Rat × Rat × Rat × Rat)) (hl : ∀ r ∈ l, (r.2.2.1, r.2.2.2) ∈ Pg)
    {s s' : TS σ P B C} (hi : EndInv T fit Pg s) (hlen : leftSize T size s < l.length) {ps : List P} (h : s.pages T l = .ok (ps, s')) : s'.finished = true := by
  induction l generalizing s ps with
  | nil => simp at hlen
  | cons r l ih =>
    obtain ⟨x, y, w, hh⟩ := r
    simp only [TS.pages] at h
    split at h
    · rename_i hf
      cases h
      exact hf
    · cases h1 : s.run T x y w hh with
      | error e => rw [h1] at h; cases h
      | ok s1 =>
        rw [h1] at h
        simp only at h
        cases h2 : s1.pages T l with
        | error e => rw [h2] at h; cases h
        | ok q =>
          obtain ⟨ps2, s2⟩ := q
          rw [h2] at h
          cases h
          obtain ⟨a1, a2⟩ := tableRun_ends H hi (fun _ => hl (x, y, w, hh) (by simp)) h1
          rcases a2 with a2 | a2
          · cases l with
            | nil => cases h2; exact a2
            | cons r l =>
              obtain ⟨x', y', w', hh'⟩ := r
              simp only [TS.pages, a2, if_true] at h2
              cases h2
              exact a2
          · exact ih (fun r hr => hl r (by simp [hr])) a1 (by simp only [List.length_cons] at hlen; omega) h2

end

/-! ### the loop and runs -/

/-- the loop runs the table in the first rectangles -/
theorem pages_runs [DecidableEq B] {T : TConf σ P B C} (l : List (Rat × Rat × Rat × Rat)) {s s' : TS σ P B C} {ps : List P} (h : s.pages T l = .ok (ps, s')) :
    ∃ n, n ≤ l.length ∧ s.runs T (l.take n) = .ok (ps, s') ∧ (s'.finished = true ∨ n = l.length) := by
  induction l generalizing s ps with
  | nil => cases h; exact ⟨0, le_refl _, rfl, Or.inr rfl⟩
  | cons r l ih =>
    obtain ⟨x, y, w, hh⟩ := r
    simp only [TS.pages] at h
    split at h
    · rename_i hf
      cases h
      exact ⟨0, Nat.zero_le _, rfl, Or.inl hf⟩
    · cases h1 : s.run T x y w hh with
      | error e => rw [h1] at h; cases h
      | ok s1 =>
        rw [h1] at h
        simp only at h
        cases h2 : s1.pages T l with
        | error e => rw [h2] at h; cases h
        | ok q =>
          obtain ⟨ps2, s2⟩ := q
          rw [h2] at h
          cases h
          obtain ⟨n, n1, n2, n3⟩ := ih h2
          refine ⟨n + 1, by simpa using n1, ?_, by simpa using n3⟩
          simp only [List.take_succ_cons, TS.runs, h1, n2]

/-! ### no errors -/

section
variable [DecidableEq B] {T : TConf σ P B C}

theorem addCell_total (he : ∀ c x y w h, ∃ o, T.exec c x y w h = .ok o) (s : TS σ P B C) (col : Nat) (el : RowEl σ C) (dl : Bool) :
    ∃ s', s.addCell T col el dl = .ok s' := by
  have key : ∀ (s1 : TS σ P B C) d b, ∃ h s2, s1.addContent T col d b = .ok (h, s2) := by
    intro s1 d b
    unfold TS.addContent
    split
    · exact ⟨_, _, rfl⟩
    · rename_i c _
      obtain ⟨o, ho⟩ := he c b.x b.y b.width b.height
      rw [ho]
      exact ⟨_, _, rfl⟩
  unfold TS.addCell
  simp only
  split
  · exact ⟨_, rfl⟩
  · split
    · rename_i e h
      obtain ⟨a, b, h'⟩ := key _ _ _
      rw [h'] at h
      cases h
    · exact ⟨_, rfl⟩

theorem addCells_total (he : ∀ c x y w h, ∃ o, T.exec c x y w h = .ok o) (dl : Bool) (l : List (RowEl σ C)) (col : Nat) (s : TS σ P B C) :
    ∃ s', s.addCells T dl col l = .ok s' := by
  induction l generalizing col s with
  | nil => exact ⟨s, rfl⟩
  | cons el l ih =>
    obtain ⟨s1, h1⟩ := addCell_total he s col el dl
    obtain ⟨s2, h2⟩ := ih (col + 1) s1
    exact ⟨s2, by simp only [TS.addCells, h1, h2]⟩

theorem addRow_total (he : ∀ c x y w h, ∃ o, T.exec c x y w h = .ok o) (dl : Bool) (l : List (RowEl σ C)) (hl : l.length = T.cols) (s : TS σ P B C) :
    ∃ r, s.addRow T l dl = .ok r := by
  unfold TS.addRow
  rw [if_neg (not_not.2 hl)]
  simp only
  split
  · rename_i e h
    obtain ⟨a, h'⟩ := addCells_total he dl l 0 _
    rw [h'] at h
    cases h
  · split
    · exact ⟨_, rfl⟩
    · exact ⟨_, rfl⟩

theorem addRows_total (he : ∀ c x y w h, ∃ o, T.exec c x y w h = .ok o) (l : List (List (Option (Cell σ C)))) (hl : ∀ row ∈ l, row.length = T.cols) (s : TS σ P B C) :
    ∃ r, s.addRows T l = .ok r := by
  induction l generalizing s with
  | nil => exact ⟨_, rfl⟩
  | cons row l ih =>
    obtain ⟨⟨act, s1⟩, h1⟩ := addRow_total he false (row.map .cell) (by simpa using hl row (by simp)) s
    simp only [TS.addRows, h1]
    cases act with
    | cancel => exact ⟨_, rfl⟩
    | interrupt => exact ⟨_, rfl⟩
    | «continue» => exact ih (fun r hr => hl r (by simp [hr])) _

/-- a table all of whose rows have as many cells as there are columns, and whose contents raise no errors, raises no errors -/
theorem run_total (he : ∀ c x y w h, ∃ o, T.exec c x y w h = .ok o) (hl : ∀ row ∈ T.content, row.length = T.cols) (s : TS σ P B C) (x y w h : Rat) :
    ∃ s', s.run T x y w h = .ok s' := by
  have late : ∃ r, (s.clear T x y w h).addLate T = .ok r := by
    unfold TS.addLate
    split
    · exact ⟨_, rfl⟩
    · obtain ⟨⟨act, s1⟩, h1⟩ := addRow_total he true ((List.range T.cols).map fun i => .late (dget i (s.clear T x y w h).delayed)) (by simp) (s.clear T x y w h)
      rw [h1]
      cases act <;> exact ⟨_, rfl⟩
  obtain ⟨⟨go, s1⟩, h1⟩ := late
  unfold TS.run
  rw [h1]
  cases go with
  | false => exact ⟨_, rfl⟩
  | true =>
    obtain ⟨⟨cn, s2⟩, h2⟩ := addRows_total he (T.content.drop s1.index) (fun row hr => hl row (List.mem_of_mem_drop hr)) s1
    simp only [h2]
    cases cn <;> exact ⟨_, rfl⟩

theorem pages_total (he : ∀ c x y w h, ∃ o, T.exec c x y w h = .ok o) (hl : ∀ row ∈ T.content, row.length = T.cols) (l : List (Rat × Rat × Rat × Rat)) (s : TS σ P B C) :
    ∃ ps s', s.pages T l = .ok (ps, s') := by
  induction l generalizing s with
  | nil => exact ⟨_, _, rfl⟩
  | cons r l ih =>
    obtain ⟨x, y, w, h⟩ := r
    simp only [TS.pages]
    split
    · exact ⟨_, _, rfl⟩
    · obtain ⟨s1, h1⟩ := run_total he hl s x y w h
      obtain ⟨ps, s2, h2⟩ := ih s1
      rw [h1]
      simp only [h2]
      exact ⟨_, _, rfl⟩

/-- the loop, for contents that are run alike -/
theorem pages_cong {fine : σ → Rat → Prop} {Ws : List Rat} {e' : σ → Rat → Rat → Rat → Rat → Except PyErr (CellOut σ P B C)} (H : SameWhere fine T.exec e')
    (hb : ∀ j, ∀ W ∈ Ws, ∀ i : Nat, fine T.blank (boxWidth T W i j 0 T.style)) (hl : RowsFine T fine Ws) (rects : List (Rat × Rat × Rat × Rat))
    (hW : ∀ r ∈ rects, r.2.2.1 ∈ Ws) {s : TS σ P B C} (hs : LateFine T fine Ws s) : s.pages { T with exec := e' } rects = s.pages T rects := by
  induction rects generalizing s with
  | nil => rfl
  | cons r rects ih =>
    obtain ⟨x, y, w, h⟩ := r
    obtain ⟨a1, a2⟩ := run_cong (x := x) (y := y) (h := h) H hb hl (hW (x, y, w, h) (by simp)) hs
    simp only [TS.pages, a1]
    split
    · rfl
    · cases h1 : s.run T x y w h with
      | error e => rfl
      | ok s1 =>
        simp only
        rw [ih (fun r hr => hW r (by simp [hr])) (a2 s1 h1)]

end
end Verif
