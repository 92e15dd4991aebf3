import Verif.Lemmas.TableRun
import Verif.Props.C29_C33_Cells
/-! A table without row spans that takes no height shows nothing. -/
namespace Verif
open Spec

variable {σ P B C A : Type} [DecidableEq B] {T : TConf σ P B C} {atoms : P → List A}

/-- a cell that does not go on in further rows, with margins that are not negative -/
def LowCell (n : Nat) (d : Delayed σ C) : Prop := d.rows = 0 ∧ d.row ≤ n ∧ 0 ≤ d.style.top ∧ 0 ≤ d.style.bottom

def LowLate (s : TS σ P B C) : Prop := ∀ c d, dget c s.delayed = some d → LowCell s.index d

theorem LowCell.mono {n m : Nat} {d : Delayed σ C} (h : LowCell n d) (hm : n ≤ m) : LowCell m d := ⟨h.1, le_trans h.2.1 hm, h.2.2⟩

omit [DecidableEq B] in
theorem skipped_grows {s s' : TS σ P B C} {col : Nat} (h : Skipped s s' col) : s.maxHeight ≤ s'.maxHeight := by
  cases hr : dget col s.rowspan with
  | none => rw [(h.none hr).2.2]
  | some q =>
    obtain ⟨k, m⟩ := q
    by_cases hk : k = 1
    · subst hk
      rw [(h.last m hr).2.2]
      exact le_max_right _ _
    · rw [(h.more k m hr hk).2.2]

theorem addCell_zero (hz : ∀ c x y w h o, T.exec c x y w h = .ok o → o.height ≤ 0 → o.parts.flatMap atoms = []) (hb : ∀ i j v, 0 ≤ (T.border i j v).width)
    {s s' : TS σ P B C} {col : Nat} {el : RowEl σ C} {dl : Bool} (hl : LowLate s) (hel : LowCell s.index (T.element s.index el))
    (h : s.addCell T col el dl = .ok s') :
    LowLate s' ∧ s.maxHeight ≤ s'.maxHeight ∧ ∃ u, s'.parts = s.parts ++ u ∧ (s'.maxHeight ≤ 0 → u.flatMap atoms = []) := by
  rcases addCell_cases h with ⟨-, hk⟩ | ⟨-, hk⟩
  · refine ⟨?_, skipped_grows hk, [], by rw [hk.parts, List.append_nil], fun _ => rfl⟩
    intro c d hd
    rw [hk.delayed] at hd
    rw [hk.frame.index]
    exact hl c d hd
  · obtain ⟨hh, b, hf, -, -, hpad, -, hmax⟩ := hk.content
    have hrl : ¬ (T.element s.index el).rowsLeft s.index > 0 := by
      unfold Delayed.rowsLeft
      rw [hel.1]
      have := hel.2.1
      simp
      omega
    have hm := (hmax hrl).2
    have hp : 0 ≤ b.padY := by
      rw [hpad]
      have h1 := hb s.index col false
      have h2 := hb (s.index + (T.element s.index el).rowsLeft s.index + 1) col false
      have h3 := hel.2.2.1
      have h4 := hel.2.2.2
      linarith
    have hgt : s'.maxHeight ≤ 0 → hh ≤ 0 := by
      intro h0
      by_contra hpos
      rw [hm] at h0
      have := le_trans (le_max_left _ _) h0
      unfold cellHeight at this
      rw [if_pos (not_le.1 hpos)] at this
      linarith [not_le.1 hpos]
    refine ⟨?_, by rw [hm]; exact le_max_right _ _, ?_⟩
    · intro j d hd
      rw [hk.frame.index]
      cases hf with
      | empty hc _ he =>
        rw [he, dget_dset] at hd
        split at hd
        · cases hd; exact hel
        · exact hl j d hd
      | @run c o hc hex _ he =>
        rw [he] at hd
        split at hd
        · rw [dget_ddrop] at hd
          split at hd
          · cases hd
          · exact hl j d hd
        · rw [dget_dset] at hd
          split at hd
          · cases hd; exact hel
          · exact hl j d hd
    · cases hf with
      | empty hc hp' _ => exact ⟨[], by rw [hp', List.append_nil], fun _ => rfl⟩
      | @run c o hc hex hp' _ => exact ⟨o.parts, hp', fun h0 => hz _ _ _ _ _ _ hex (hgt h0)⟩

theorem addCells_zero (hz : ∀ c x y w h o, T.exec c x y w h = .ok o → o.height ≤ 0 → o.parts.flatMap atoms = []) (hb : ∀ i j v, 0 ≤ (T.border i j v).width)
    {dl : Bool} (l : List (RowEl σ C)) {col : Nat} {s s' : TS σ P B C} (hl : LowLate s) (hel : ∀ el ∈ l, LowCell s.index (T.element s.index el))
    (h : s.addCells T dl col l = .ok s') :
    LowLate s' ∧ s'.index = s.index ∧ s.maxHeight ≤ s'.maxHeight ∧ ∃ u, s'.parts = s.parts ++ u ∧ (s'.maxHeight ≤ 0 → u.flatMap atoms = []) := by
  induction l generalizing col s with
  | nil =>
    cases h
    exact ⟨hl, rfl, le_refl _, [], by simp, fun _ => rfl⟩
  | cons el l ih =>
    simp only [TS.addCells] at h
    cases h1 : s.addCell T col el dl with
    | error e => rw [h1] at h; cases h
    | ok s1 =>
      rw [h1] at h
      obtain ⟨a1, a2, u, a3, a4⟩ := addCell_zero hz hb hl (hel el (by simp)) h1
      have hi : s1.index = s.index := by
        rcases addCell_cases h1 with ⟨-, hk⟩ | ⟨-, hk⟩
        · exact hk.frame.index
        · exact hk.frame.index
      obtain ⟨b1, b2, b3, v, b4, b5⟩ := ih (col := col + 1) (s := s1) a1 (fun el' he => by rw [hi]; exact hel el' (by simp [he])) h
      refine ⟨b1, b2.trans hi, le_trans a2 b3, u ++ v, by rw [b4, a3, List.append_assoc], fun h0 => ?_⟩
      rw [List.flatMap_append, a4 (le_trans b3 h0), b5 h0]
      rfl

theorem addRow_zero (hz : ∀ c x y w h o, T.exec c x y w h = .ok o → o.height ≤ 0 → o.parts.flatMap atoms = []) (hb : ∀ i j v, 0 ≤ (T.border i j v).width)
    {dl : Bool} (l : List (RowEl σ C)) {s s' : TS σ P B C} {act : RowAct} (hl : LowLate s) (hel : ∀ el ∈ l, LowCell s.index (T.element s.index el))
    (h : s.addRow T l dl = .ok (act, s')) :
    LowLate s' ∧ s'.index = s.index ∧ s.currentHeight ≤ s'.currentHeight ∧
      ∃ u, s'.parts = s.parts ++ u ∧ (s'.currentHeight ≤ s.currentHeight → u.flatMap atoms = []) := by
  obtain ⟨-, s0, s1, e1, -, e3, -, -, -, e7, -, -, -, h1, f1, -, -, f3, f4⟩ := addRow_unfold_width h
  have hi0 : s0.index = s.index := e1.index
  obtain ⟨a1, a2, a3, u, a4, a5⟩ := addCells_zero hz hb l (s := s0) (by
    intro c d hd
    rw [e1.delayed] at hd
    rw [hi0]
    exact hl c d hd) (by rw [hi0]; exact hel) h1
  have hc1 : s1.currentHeight = s.currentHeight := by
    have : ∀ (l : List (RowEl σ C)) (col : Nat) (s s' : TS σ P B C), s.addCells T dl col l = .ok s' → s'.currentHeight = s.currentHeight := by
      intro l
      induction l with
      | nil => intro col s s' h; cases h; rfl
      | cons el l ih =>
        intro col s s' h
        simp only [TS.addCells] at h
        cases h1 : s.addCell T col el dl with
        | error e => rw [h1] at h; cases h
        | ok s2 =>
          rw [h1] at h
          rw [ih _ _ _ h]
          rcases addCell_cases h1 with ⟨-, hk⟩ | ⟨-, hk⟩
          · exact hk.frame.currentHeight
          · exact hk.frame.currentHeight
    rw [this l 0 s0 s1 h1, e7]
  have hl' : LowLate s' := by
    intro c d hd
    rw [f1.delayed] at hd
    rw [f1.index]
    exact a1 c d hd
  have hi' : s'.index = s.index := by rw [f1.index, a2, hi0]
  have hp : s'.parts = s.parts ++ u := by rw [f1.parts, a4, e1.parts]
  rw [e3] at a3
  by_cases hc : act = .cancel
  · obtain ⟨-, g2, g3, -⟩ := f3 hc
    exact ⟨hl', hi', by rw [g3, hc1], u, hp, fun _ => a5 (le_of_eq g2)⟩
  · obtain ⟨-, -, g3, -⟩ := f4 hc
    rw [hc1] at g3
    exact ⟨hl', hi', by rw [g3]; linarith, u, hp, fun h0 => a5 (by rw [g3] at h0; linarith)⟩

omit [DecidableEq B] in
theorem element_low (hst : 0 ≤ T.style.top ∧ 0 ≤ T.style.bottom) (n : Nat) {el : RowEl σ C}
    (h : (∀ c, el = .cell (some c) → c.rows = 0 ∧ 0 ≤ c.style.top ∧ 0 ≤ c.style.bottom) ∧ ∀ d, el = .late (some d) → LowCell n d) : LowCell n (T.element n el) := by
  rcases el with (_ | c) | (_ | d)
  · exact ⟨rfl, le_refl _, hst⟩
  · obtain ⟨h1, h2⟩ := h.1 c rfl
    exact ⟨h1, le_refl _, h2⟩
  · exact ⟨rfl, le_refl _, hst⟩
  · have := h.2 d rfl
    simp only [TConf.element]
    split
    · exact this
    · exact ⟨this.1, this.2.1, hst⟩

theorem addRows_zero (hz : ∀ c x y w h o, T.exec c x y w h = .ok o → o.height ≤ 0 → o.parts.flatMap atoms = []) (hb : ∀ i j v, 0 ≤ (T.border i j v).width)
    (hst : 0 ≤ T.style.top ∧ 0 ≤ T.style.bottom)
    (l : List (List (Option (Cell σ C)))) (hl : ∀ row ∈ l, ∀ c, some c ∈ row → c.rows = 0 ∧ 0 ≤ c.style.top ∧ 0 ≤ c.style.bottom)
    {s s' : TS σ P B C} {cn : Bool} (hs : LowLate s) (h : s.addRows T l = .ok (cn, s')) :
    LowLate s' ∧ s.currentHeight ≤ s'.currentHeight ∧ ∃ u, s'.parts = s.parts ++ u ∧ (s'.currentHeight ≤ s.currentHeight → u.flatMap atoms = []) := by
  induction l generalizing s with
  | nil =>
    cases h
    exact ⟨hs, le_refl _, [], by simp, fun _ => rfl⟩
  | cons row l ih =>
    simp only [TS.addRows] at h
    cases h1 : s.addRow T (row.map .cell) false with
    | error e => rw [h1] at h; cases h
    | ok q =>
      obtain ⟨act, s1⟩ := q
      rw [h1] at h
      obtain ⟨a1, a2, a3, u, a4, a5⟩ := addRow_zero hz hb (row.map .cell) hs (by
        intro el hel
        obtain ⟨c, hc, rfl⟩ := List.mem_map.1 hel
        refine element_low hst _ ⟨?_, ?_⟩
        · intro c' hc'
          cases hc'
          exact hl row (by simp) c' hc
        · intro d hd
          cases hd) h1
      cases act with
      | cancel =>
        cases h
        exact ⟨a1, a3, u, a4, a5⟩
      | interrupt =>
        cases h
        exact ⟨a1, a3, u, a4, a5⟩
      | «continue» =>
        obtain ⟨b1, b2, v, b3, b4⟩ := ih (fun row hr => hl row (by simp [hr])) (s := { s1 with index := s1.index + 1 })
          (fun c d hd => (a1 c d hd).mono (by show s1.index ≤ s1.index + 1; omega)) h
        have b2' : s1.currentHeight ≤ s'.currentHeight := b2
        refine ⟨b1, le_trans a3 b2', u ++ v, ?_, fun h0 => ?_⟩
        · rw [b3]
          show s1.parts ++ v = _
          rw [a4, List.append_assoc]
        · rw [List.flatMap_append, a5 (le_trans b2' h0), b4 (le_trans h0 a3)]
          rfl

theorem close_currentHeight (T : TConf σ P B C) (s : TS σ P B C) : (s.close T).currentHeight = s.currentHeight := by
  have key : ∀ (l : List Nat) (s0 : TS σ P B C), (l.foldl (fun s col => s.closeCol T col) s0).currentHeight = s0.currentHeight := by
    intro l
    induction l with
    | nil => intro s0; rfl
    | cons a l ih => intro s0; exact ih (s0.closeCol T a)
  exact key (List.range T.cols) { s with topLines := [], topInt := true, yAbs := s.y - s.currentHeight }

/-- rows without row spans, and margins that are not negative -/
def LowRows (T : TConf σ P B C) : Prop := ∀ row ∈ T.content, ∀ c, some c ∈ row → c.rows = 0 ∧ 0 ≤ c.style.top ∧ 0 ≤ c.style.bottom

theorem run_zero (hz : ∀ c x y w h o, T.exec c x y w h = .ok o → o.height ≤ 0 → o.parts.flatMap atoms = []) (hb : ∀ i j v, 0 ≤ (T.border i j v).width)
    (hst : 0 ≤ T.style.top ∧ 0 ≤ T.style.bottom) (hl : LowRows T) {s s' : TS σ P B C} {x y w h : Rat} (hs : LowLate s) (hr : s.run T x y w h = .ok s') :
    LowLate s' ∧ (s'.currentHeight ≤ 0 → s'.parts.flatMap atoms = []) := by
  unfold TS.run at hr
  have hs0 : LowLate (s.clear T x y w h) := hs
  have late : ∀ go s1, (s.clear T x y w h).addLate T = .ok (go, s1) → LowLate s1 ∧ 0 ≤ s1.currentHeight ∧ (s1.currentHeight ≤ 0 → s1.parts.flatMap atoms = []) := by
    intro go s1 h1
    unfold TS.addLate at h1
    split at h1
    · cases h1
      exact ⟨hs0, le_refl _, fun _ => rfl⟩
    · cases h2 : (s.clear T x y w h).addRow T ((List.range T.cols).map fun i => .late (dget i (s.clear T x y w h).delayed)) true with
      | error e => rw [h2] at h1; cases h1
      | ok q =>
        obtain ⟨act, s2⟩ := q
        rw [h2] at h1
        obtain ⟨a1, a2, a3, u, a4, a5⟩ := addRow_zero hz hb _ hs0 (by
          intro el hel
          obtain ⟨i, -, rfl⟩ := List.mem_map.1 hel
          refine element_low hst _ ⟨fun c hc => (by cases hc), fun d hd => ?_⟩
          cases hd' : dget i (s.clear T x y w h).delayed with
          | none => rw [hd'] at hd; cases hd
          | some d' => rw [hd'] at hd; cases hd; exact hs0 i d hd') h2
        have a4' : s2.parts = u := a4
        have a3' : 0 ≤ s2.currentHeight := a3
        have key : LowLate s2 ∧ 0 ≤ s2.currentHeight ∧ (s2.currentHeight ≤ 0 → s2.parts.flatMap atoms = []) := ⟨a1, a3', fun h0 => by rw [a4']; exact a5 h0⟩
        cases act <;> cases h1
        · exact key
        · exact ⟨fun c d hd => (a1 c d hd).mono (by show s2.index ≤ s2.index + 1; omega), key.2⟩
        · exact key
  have closed : ∀ s1 : TS σ P B C, LowLate s1 → (s1.currentHeight ≤ 0 → s1.parts.flatMap atoms = []) →
      LowLate (s1.close T) ∧ ((s1.close T).currentHeight ≤ 0 → (s1.close T).parts.flatMap atoms = []) := by
    intro s1 h1 h2
    obtain ⟨c1, -⟩ := close_same T s1
    refine ⟨fun c d hd => ?_, fun h0 => ?_⟩
    · rw [c1.delayed] at hd
      rw [c1.index]
      exact h1 c d hd
    · rw [c1.parts]
      rw [close_currentHeight] at h0
      exact h2 h0
  cases h1 : (s.clear T x y w h).addLate T with
  | error e => rw [h1] at hr; cases hr
  | ok q =>
    obtain ⟨go, s1⟩ := q
    rw [h1] at hr
    obtain ⟨a1, a2, a3⟩ := late go s1 h1
    cases go with
    | false =>
      cases hr
      exact closed s1 a1 a3
    | true =>
      simp only at hr
      cases h2 : s1.addRows T (T.content.drop s1.index) with
      | error e => rw [h2] at hr; cases hr
      | ok q =>
        obtain ⟨cn, s2⟩ := q
        rw [h2] at hr
        obtain ⟨b1, b2, u, b3, b4⟩ := addRows_zero hz hb hst _ (fun row hrow => hl row (List.mem_of_mem_drop hrow)) a1 h2
        cases cn with
        | true =>
          cases hr
          exact ⟨b1, fun _ => rfl⟩
        | false =>
          cases hr
          refine closed s2 b1 fun h0 => ?_
          rw [b3, List.flatMap_append, a3 (le_trans b2 h0), b4 (le_trans h0 a2)]
          rfl

theorem runs_low (hz : ∀ c x y w h o, T.exec c x y w h = .ok o → o.height ≤ 0 → o.parts.flatMap atoms = []) (hb : ∀ i j v, 0 ≤ (T.border i j v).width)
    (hst : 0 ≤ T.style.top ∧ 0 ≤ T.style.bottom) (hl : LowRows T) (rects : List (Rat × Rat × Rat × Rat)) {s s' : TS σ P B C} {ps : List P} (hs : LowLate s)
    (hr : s.runs T rects = .ok (ps, s')) : LowLate s' := by
  induction rects generalizing s ps with
  | nil => cases hr; exact hs
  | cons r rects ih =>
    obtain ⟨x, y, w, h⟩ := r
    simp only [TS.runs] at hr
    cases h1 : s.run T x y w h with
    | error e => rw [h1] at hr; cases hr
    | ok s1 =>
      rw [h1] at hr
      simp only at hr
      cases h2 : s1.runs T rects with
      | error e => rw [h2] at hr; cases hr
      | ok q =>
        obtain ⟨ps2, s2⟩ := q
        rw [h2] at hr
        simp only [Except.ok.injEq, Prod.mk.injEq] at hr
        obtain ⟨-, rfl⟩ := hr
        exact ih (run_zero hz hb hst hl hs h1).1 h2

theorem runs_snoc (T : TConf σ P B C) (rects : List (Rat × Rat × Rat × Rat)) (x y w h : Rat) (s : TS σ P B C) :
    s.runs T (rects ++ [(x, y, w, h)]) = match s.runs T rects with
      | .error e => .error e
      | .ok (ps, s1) => match s1.run T x y w h with
        | .error e => .error e
        | .ok s2 => .ok (ps ++ s2.parts, s2) := by
  induction rects generalizing s with
  | nil =>
    simp only [List.nil_append, TS.runs]
    cases s.run T x y w h with
    | error e => rfl
    | ok s2 => simp
  | cons r rects ih =>
    obtain ⟨x', y', w', h'⟩ := r
    simp only [List.cons_append, TS.runs]
    cases s.run T x' y' w' h' with
    | error e => rfl
    | ok s1 =>
      simp only [ih]
      cases s1.runs T rects with
      | error e => rfl
      | ok q =>
        obtain ⟨ps, s2⟩ := q
        simp only
        cases s2.run T x y w h with
        | error e => rfl
        | ok s3 => simp

end Verif
