import Verif.Lemmas.TableRun
import Verif.Props.C29_C33_Cells
/-! A table runs in the same way with two functions for the contents of cells that agree where they are used. -/
namespace Verif
open Spec

variable {σ P B C : Type}

/-- the width of the content of a cell at row `i`, column `j` of a table of width `W` (table.py:586-627) -/
def boxWidth (T : TConf σ P B C) (W : Rat) (i j cols : Nat) (st : CellStyle C) : Rat :=
  cellWidth T.widths W j (cols + 1) -
    ((T.border i j true).width / 2 + st.left + ((T.border i (j + cols + 1) true).width / 2 + st.right))

/-- a cell, wherever it is continued, has a box that is fine for its content -/
def CellFine (T : TConf σ P B C) (fine : σ → Rat → Prop) (Ws : List Rat) (j : Nat) (d : Delayed σ C) : Prop :=
  ∀ c, d.content = some c → ∀ W ∈ Ws, ∀ i : Nat, fine c (boxWidth T W i j d.cols d.style)

/-- the delayed cells are fine -/
def LateFine (T : TConf σ P B C) (fine : σ → Rat → Prop) (Ws : List Rat) (s : TS σ P B C) : Prop :=
  ∀ j d, dget j s.delayed = some d → CellFine T fine Ws j d

/-- what two ways of running contents have in common -/
structure SameWhere (fine : σ → Rat → Prop) (e e' : σ → Rat → Rat → Rat → Rat → Except PyErr (CellOut σ P B C)) : Prop where
  same : ∀ c x y w h, fine c w → e' c x y w h = e c x y w h
  next : ∀ c x y w h o w', e' c x y w h = .ok o → fine c w' → fine o.next w'

section
variable [DecidableEq B] {T : TConf σ P B C} {fine : σ → Rat → Prop} {Ws : List Rat}
  {e' : σ → Rat → Rat → Rat → Rat → Except PyErr (CellOut σ P B C)}

theorem addCell_cong (H : SameWhere fine T.exec e') {s : TS σ P B C} {col : Nat} {el : RowEl σ C} {dl : Bool} (hW : s.width ∈ Ws)
    (hel : CellFine T fine Ws col (T.element s.index el)) :
    s.addCell { T with exec := e' } col el dl = s.addCell T col el dl := by
  unfold TS.addCell
  simp only [isSpan_fst]
  have hs : ({ s with xAbs := colX T.widths s.x s.width col } : TS σ P B C).spans col dl = s.spans col dl := rfl
  rw [hs]
  cases hsp : s.spans col dl with
  | true => rfl
  | false =>
    rw [isSpan_not (hs.trans hsp)]
    simp only [Bool.false_eq_true, if_false]
    have key : ∀ (s1 : TS σ P B C) (b : CellBox), (∀ c, (T.element s.index el).content = some c → fine c b.width) →
        s1.addContent { T with exec := e' } col (T.element s.index el) b = s1.addContent T col (T.element s.index el) b := by
      intro s1 b hb
      unfold TS.addContent
      split
      · rfl
      · rename_i c hc
        simp only [H.same _ _ _ _ _ (hb c hc)]
    have hb : ∀ c, (T.element s.index el).content = some c → fine c (boxWidth T s.width s.index col (T.element s.index el).cols (T.element s.index el).style) :=
      fun c hc => hel c hc s.width hW s.index
    have := fun s1 b (h : CellBox.width b = boxWidth T s.width s.index col (T.element s.index el).cols (T.element s.index el).style) =>
      key s1 b (fun c hc => by rw [h]; exact hb c hc)
    have h1 : ∀ (s1 : TS σ P B C) l t, s1.processBorders { T with exec := e' } col l t = s1.processBorders T col l t := fun _ _ _ => rfl
    have h2 : ∀ i el, TConf.element { T with exec := e' } i el = T.element i el := fun _ _ => rfl
    have h3 : ∀ (s1 : TS σ P B C) l t d, s1.cellBox { T with exec := e' } col l t d = s1.cellBox T col l t d := fun _ _ _ _ => rfl
    have h4 : ∀ (s1 : TS σ P B C) o w l, s1.setFill { T with exec := e' } col o w l = s1.setFill T col o w l := fun _ _ _ _ => rfl
    have h5 : ∀ (s1 : TS σ P B C) l t, (s1.processBorders T col l t).index = s1.index := fun _ _ _ => rfl
    simp only [h1, h2, h3, h4, h5]
    rw [this _ _ rfl]

theorem addCell_fine (H : SameWhere fine T.exec e') {s s' : TS σ P B C} {col : Nat} {el : RowEl σ C} {dl : Bool} (hW : s.width ∈ Ws) (hs : LateFine T fine Ws s)
    (hel : CellFine T fine Ws col (T.element s.index el)) (h : s.addCell T col el dl = .ok s') : LateFine T fine Ws s' := by
  rw [← addCell_cong H hW hel] at h
  rcases addCell_cases h with ⟨-, hk⟩ | ⟨-, hk⟩
  · intro j d hd
    rw [hk.delayed] at hd
    exact hs j d hd
  · obtain ⟨hh, b, hf, -⟩ := hk.content
    intro j d hd
    by_cases hj : j = col
    · subst hj
      cases hf with
      | empty hc _ he =>
        rw [he, dget_dset_self] at hd
        cases hd
        intro c hc'
        rw [hc] at hc'
        cases hc'
      | @run c o hc hex _ he =>
        rw [he] at hd
        split at hd
        · simp [dget_ddrop] at hd
        · rw [dget_dset_self] at hd
          cases hd
          intro c' hc' W hW i
          cases hc'
          exact H.next _ _ _ _ _ _ _ hex (hel c hc W hW i)
    · cases hf with
      | empty _ _ he =>
        rw [he, dget_dset_ne (Ne.symm hj)] at hd
        exact hs j d hd
      | @run c o hc hex _ he =>
        rw [he] at hd
        refine hs j d ?_
        split at hd
        · rwa [dget_ddrop, if_neg hj] at hd
        · rwa [dget_dset_ne (Ne.symm hj)] at hd

theorem addCell_frame {s s' : TS σ P B C} {col : Nat} {el : RowEl σ C} {dl : Bool} (h : s.addCell T col el dl = .ok s') : CellFrame s s' := by
  rcases addCell_cases h with ⟨-, hk⟩ | ⟨-, hk⟩
  · exact hk.frame
  · exact hk.frame

theorem addCells_cong (H : SameWhere fine T.exec e') {dl : Bool} (l : List (RowEl σ C)) {col : Nat} {s : TS σ P B C} (hW : s.width ∈ Ws)
    (hs : LateFine T fine Ws s) (hel : ∀ (k : Nat) el, l[k]? = some el → CellFine T fine Ws (col + k) (T.element s.index el)) :
    s.addCells { T with exec := e' } dl col l = s.addCells T dl col l ∧
    ∀ s', s.addCells T dl col l = .ok s' → LateFine T fine Ws s' ∧ CellFrame s s' := by
  induction l generalizing col s with
  | nil =>
    refine ⟨rfl, fun s' h => ?_⟩
    cases h
    exact ⟨hs, CellFrame.refl _⟩
  | cons el l ih =>
    have h0 := hel 0 el rfl
    rw [Nat.add_zero] at h0
    simp only [TS.addCells, addCell_cong H hW h0]
    cases h1 : s.addCell T col el dl with
    | error e => exact ⟨rfl, fun s' h => by cases h⟩
    | ok s1 =>
      have hf := addCell_frame h1
      obtain ⟨a1, a2⟩ := ih (col := col + 1) (s := s1) (by rw [hf.width]; exact hW) (addCell_fine H hW hs h0 h1) (by
        intro k el' hk
        have := hel (k + 1) el' (by simpa using hk)
        rw [hf.index, show col + 1 + k = col + (k + 1) by omega]
        exact this)
      exact ⟨a1, fun s' h => ⟨(a2 s' h).1, hf.trans (a2 s' h).2⟩⟩

theorem addRow_cong (H : SameWhere fine T.exec e') {dl : Bool} (l : List (RowEl σ C)) {s : TS σ P B C} (hW : s.width ∈ Ws)
    (hs : LateFine T fine Ws s) (hel : ∀ (k : Nat) el, l[k]? = some el → CellFine T fine Ws k (T.element s.index el)) :
    s.addRow { T with exec := e' } l dl = s.addRow T l dl ∧
    ∀ a s', s.addRow T l dl = .ok (a, s') → LateFine T fine Ws s' ∧ s'.width = s.width := by
  unfold TS.addRow
  split
  · exact ⟨rfl, fun a s' h => by cases h⟩
  · obtain ⟨a1, a2⟩ := addCells_cong H (dl := dl) l (col := 0) (s := { s with
      maxHeight := 0
      rowMax := s.height - s.currentHeight
      colspan := 0
      topLines := []
      topInt := true
      isRowspan := false
      yAbs := s.y - s.currentHeight }) hW hs (by intro k el hk; rw [Nat.zero_add]; exact hel k el hk)
    simp only [a1]
    split
    · exact ⟨rfl, fun a s' h => by cases h⟩
    · rename_i s1 hs1
      obtain ⟨b1, b2⟩ := a2 s1 hs1
      split
      · refine ⟨rfl, fun a s' h => ?_⟩
        cases h
        exact ⟨b1, b2.width⟩
      · refine ⟨rfl, fun a s' h => ?_⟩
        cases h
        exact ⟨b1, b2.width⟩

/-- the cells of the content are fine -/
def RowsFine (T : TConf σ P B C) (fine : σ → Rat → Prop) (Ws : List Rat) : Prop :=
  ∀ i j c, cellAt T.content i j = some c → ∀ x, c.content = some x → ∀ W ∈ Ws, ∀ i' : Nat, fine x (boxWidth T W i' j c.cols c.style)

theorem addRows_cong (H : SameWhere fine T.exec e') (hb : ∀ j, ∀ W ∈ Ws, ∀ i : Nat, fine T.blank (boxWidth T W i j 0 T.style))
    (l : List (List (Option (Cell σ C)))) {s : TS σ P B C} (hW : s.width ∈ Ws) (hs : LateFine T fine Ws s)
    (hl : ∀ row ∈ l, ∀ (j : Nat) c, row[j]? = some (some c) → ∀ x, c.content = some x → ∀ W ∈ Ws, ∀ i' : Nat, fine x (boxWidth T W i' j c.cols c.style)) :
    s.addRows { T with exec := e' } l = s.addRows T l ∧ ∀ a s', s.addRows T l = .ok (a, s') → LateFine T fine Ws s' ∧ s'.width = s.width := by
  induction l generalizing s with
  | nil =>
    refine ⟨rfl, fun a s' h => ?_⟩
    cases h
    exact ⟨hs, rfl⟩
  | cons row l ih =>
    obtain ⟨a1, a2⟩ := addRow_cong H (dl := false) (row.map .cell) hW hs (by
      intro k el hk
      rw [List.getElem?_map] at hk
      obtain ⟨el', hk', rfl⟩ := Option.map_eq_some_iff.1 hk
      cases el' with
      | none =>
        intro x hx W hW i
        cases hx
        exact hb k W hW i
      | some c => intro x hx W hW i; exact hl row (by simp) k c hk' x hx W hW i)
    simp only [TS.addRows, a1]
    cases h1 : s.addRow T (row.map .cell) false with
    | error e => exact ⟨rfl, fun a s' h => by cases h⟩
    | ok q =>
      obtain ⟨act, s1⟩ := q
      obtain ⟨b1, b2⟩ := a2 act s1 h1
      cases act with
      | cancel =>
        refine ⟨rfl, fun a s' h => ?_⟩
        cases h
        exact ⟨b1, b2⟩
      | interrupt =>
        refine ⟨rfl, fun a s' h => ?_⟩
        cases h
        exact ⟨b1, b2⟩
      | «continue» =>
        obtain ⟨c1, c2⟩ := ih (s := { s1 with index := s1.index + 1 }) (by show s1.width ∈ Ws; rw [b2]; exact hW) b1
          (fun row hrow => hl row (by simp [hrow]))
        exact ⟨c1, fun a s' h => ⟨(c2 a s' h).1, (c2 a s' h).2.trans b2⟩⟩

theorem run_cong (H : SameWhere fine T.exec e') (hb : ∀ j, ∀ W ∈ Ws, ∀ i : Nat, fine T.blank (boxWidth T W i j 0 T.style))
    (hl : RowsFine T fine Ws) {s : TS σ P B C} {x y w h : Rat} (hW : w ∈ Ws) (hs : LateFine T fine Ws s) :
    s.run { T with exec := e' } x y w h = s.run T x y w h ∧ ∀ s', s.run T x y w h = .ok s' → LateFine T fine Ws s' := by
  have late : (s.clear T x y w h).addLate { T with exec := e' } = (s.clear T x y w h).addLate T ∧
      ∀ a s', (s.clear T x y w h).addLate T = .ok (a, s') → LateFine T fine Ws s' ∧ s'.width = w := by
    unfold TS.addLate
    split
    · refine ⟨rfl, fun a s' h => ?_⟩
      cases h
      exact ⟨hs, rfl⟩
    · obtain ⟨a1, a2⟩ := addRow_cong H (dl := true) ((List.range T.cols).map fun i => .late (dget i (s.clear T x y w h).delayed)) (s := s.clear T x y w h) hW hs (by
        intro k el hk
        rw [List.getElem?_map] at hk
        obtain ⟨i, hk', rfl⟩ := Option.map_eq_some_iff.1 hk
        have hik : i = k := by
          have hlt : k < T.cols := by simpa using (List.getElem?_eq_some_iff.1 hk').1
          rw [List.getElem?_range hlt] at hk'
          exact (Option.some.inj hk').symm
        subst hik
        cases hd : dget i (s.clear T x y w h).delayed with
        | none =>
          intro x hx W hW j
          cases hx
          exact hb i W hW j
        | some d =>
          have h1 := hs i d hd
          intro x hx W hW j
          cases hc : d.content with
          | none => simp [TConf.element, hc] at hx
          | some c =>
            simp only [TConf.element, hc] at hx ⊢
            exact h1 x (by rw [hc]; exact hx) W hW j)
      simp only [a1]
      cases h1 : (s.clear T x y w h).addRow T ((List.range T.cols).map fun i => .late (dget i (s.clear T x y w h).delayed)) true with
      | error e => exact ⟨trivial, fun a s' h => by cases h⟩
      | ok q =>
        obtain ⟨act, s1⟩ := q
        obtain ⟨b1, b2⟩ := a2 act s1 h1
        cases act <;>
        · refine ⟨trivial, fun a s' h => ?_⟩
          cases h
          exact ⟨b1, b2⟩
  unfold TS.run
  have e0 : s.clear { T with exec := e' } x y w h = s.clear T x y w h := rfl
  simp only [e0, late.1]
  have closed : ∀ s1 : TS σ P B C, LateFine T fine Ws s1 → LateFine T fine Ws (s1.close T) := by
    intro s1 h1 j d hd
    rw [(close_same T s1).1.delayed] at hd
    exact h1 j d hd
  cases h1 : (s.clear T x y w h).addLate T with
  | error e => exact ⟨rfl, fun s' h => by cases h⟩
  | ok q =>
    obtain ⟨go, s1⟩ := q
    obtain ⟨b1, b2⟩ := late.2 go s1 h1
    cases go with
    | false =>
      refine ⟨rfl, fun s' h => ?_⟩
      cases h
      exact closed s1 b1
    | true =>
      obtain ⟨c1, c2⟩ := addRows_cong H hb (T.content.drop s1.index) (s := s1) (by rw [b2]; exact hW) b1 (by
        intro row hrow j c hj
        obtain ⟨k, hk⟩ := List.mem_iff_getElem?.1 (List.mem_of_mem_drop hrow)
        exact hl k j c (by unfold cellAt; rw [hk, Option.bind_some, hj]; rfl))
      simp only [c1]
      cases h2 : s1.addRows T (T.content.drop s1.index) with
      | error e => exact ⟨rfl, fun s' h => by cases h⟩
      | ok q =>
        obtain ⟨cn, s2⟩ := q
        obtain ⟨d1, -⟩ := c2 cn s2 h2
        cases cn with
        | true =>
          refine ⟨rfl, fun s' h => ?_⟩
          cases h
          exact d1
        | false =>
          refine ⟨rfl, fun s' h => ?_⟩
          cases h
          exact closed s2 d1

/-- a table whose contents are fine in their boxes runs in the same way -/
theorem runs_cong (H : SameWhere fine T.exec e') (hb : ∀ j, ∀ W ∈ Ws, ∀ i : Nat, fine T.blank (boxWidth T W i j 0 T.style))
    (hl : RowsFine T fine Ws) (rects : List (Rat × Rat × Rat × Rat)) (hW : ∀ r ∈ rects, r.2.2.1 ∈ Ws) {s : TS σ P B C} (hs : LateFine T fine Ws s) :
    s.runs { T with exec := e' } rects = s.runs T rects ∧ ∀ ps s', s.runs T rects = .ok (ps, s') → LateFine T fine Ws s' := by
  induction rects generalizing s with
  | nil =>
    refine ⟨rfl, fun ps s' h => ?_⟩
    cases h
    exact hs
  | cons r rects ih =>
    obtain ⟨x, y, w, h⟩ := r
    obtain ⟨a1, a2⟩ := run_cong (x := x) (y := y) (h := h) H hb hl (hW (x, y, w, h) (by simp)) hs
    simp only [TS.runs, a1]
    cases h1 : s.run T x y w h with
    | error e => exact ⟨rfl, fun ps s' h => by cases h⟩
    | ok s1 =>
      obtain ⟨b1, b2⟩ := ih (fun r hr => hW r (by simp [hr])) (a2 s1 h1)
      simp only [b1]
      refine ⟨trivial, fun ps s' h => ?_⟩
      cases h2 : s1.runs T rects with
      | error e => rw [h2] at h; cases h
      | ok q =>
        obtain ⟨ps2, s2⟩ := q
        rw [h2] at h
        simp only [Except.ok.injEq, Prod.mk.injEq] at h
        rw [← h.2]
        exact b2 ps2 s2 h2

omit [DecidableEq B] in
theorem LateFine.new (x y w h : Rat) : LateFine T fine Ws (TS.new x y w h) := by
  intro j d hd
  cases hd

end
end Verif
