import Verif.Lemmas.TableCong
/-! The parts of a table come from the contents of its cells. -/
namespace Verif
open Spec

variable {σ P B C : Type} [DecidableEq B] {T : TConf σ P B C} {Q : P → Prop}

/-- the parts of any content -/
def ExecParts (T : TConf σ P B C) (Q : P → Prop) : Prop := ∀ c x y w h o, T.exec c x y w h = .ok o → ∀ a ∈ o.parts, Q a

theorem addCell_parts (H : ExecParts T Q) {s s' : TS σ P B C} {col : Nat} {el : RowEl σ C} {dl : Bool} (hs : ∀ a ∈ s.parts, Q a)
    (h : s.addCell T col el dl = .ok s') : ∀ a ∈ s'.parts, Q a := by
  rcases addCell_cases h with ⟨-, hk⟩ | ⟨-, hk⟩
  · rw [hk.parts]; exact hs
  · obtain ⟨hh, b, hf, -⟩ := hk.content
    cases hf with
    | empty _ hp _ => rw [hp]; exact hs
    | run _ hex hp _ =>
      rw [hp]
      intro a ha
      rcases List.mem_append.1 ha with ha | ha
      · exact hs a ha
      · exact H _ _ _ _ _ _ hex a ha

theorem addCells_parts (H : ExecParts T Q) {dl : Bool} (l : List (RowEl σ C)) {col : Nat} {s s' : TS σ P B C} (hs : ∀ a ∈ s.parts, Q a)
    (h : s.addCells T dl col l = .ok s') : ∀ a ∈ s'.parts, Q a := by
  induction l generalizing col s with
  | nil => cases h; exact hs
  | cons el l ih =>
    simp only [TS.addCells] at h
    cases h1 : s.addCell T col el dl with
    | error e => rw [h1] at h; cases h
    | ok s1 =>
      rw [h1] at h
      exact ih (addCell_parts H hs h1) h

theorem addRow_parts (H : ExecParts T Q) {dl : Bool} (l : List (RowEl σ C)) {s s' : TS σ P B C} {a : RowAct} (hs : ∀ a ∈ s.parts, Q a)
    (h : s.addRow T l dl = .ok (a, s')) : ∀ a ∈ s'.parts, Q a := by
  unfold TS.addRow at h
  split at h
  · cases h
  · simp only at h
    split at h
    · cases h
    · rename_i s1 hs1
      have := addCells_parts H l (s := { s with
        maxHeight := 0
        rowMax := s.height - s.currentHeight
        colspan := 0
        topLines := []
        topInt := true
        isRowspan := false
        yAbs := s.y - s.currentHeight }) hs hs1
      split at h <;> · cases h; exact this

theorem addRows_parts (H : ExecParts T Q) (l : List (List (Option (Cell σ C)))) {s s' : TS σ P B C} {a : Bool} (hs : ∀ a ∈ s.parts, Q a)
    (h : s.addRows T l = .ok (a, s')) : ∀ a ∈ s'.parts, Q a := by
  induction l generalizing s with
  | nil => cases h; exact hs
  | cons row l ih =>
    simp only [TS.addRows] at h
    cases h1 : s.addRow T (row.map .cell) false with
    | error e => rw [h1] at h; cases h
    | ok q =>
      obtain ⟨act, s1⟩ := q
      have b := addRow_parts H _ hs h1
      rw [h1] at h
      cases act with
      | cancel => cases h; exact b
      | interrupt => cases h; exact b
      | «continue» => exact ih (s := { s1 with index := s1.index + 1 }) b h

/-- all parts of a run come from the contents of cells -/
theorem run_parts (H : ExecParts T Q) {s s' : TS σ P B C} {x y w h : Rat} (hr : s.run T x y w h = .ok s') : ∀ a ∈ s'.parts, Q a := by
  unfold TS.run at hr
  have hc : ∀ a ∈ (s.clear T x y w h).parts, Q a := by intro a ha; cases ha
  have closed : ∀ s1 : TS σ P B C, (∀ a ∈ s1.parts, Q a) → ∀ a ∈ (s1.close T).parts, Q a := by
    intro s1 h1
    rw [(close_same T s1).1.parts]
    exact h1
  cases h1 : (s.clear T x y w h).addLate T with
  | error e => rw [h1] at hr; cases hr
  | ok q =>
    obtain ⟨go, s1⟩ := q
    have b : ∀ a ∈ s1.parts, Q a := by
      unfold TS.addLate at h1
      split at h1
      · cases h1; exact hc
      · split at h1
        · cases h1
        · rename_i s2 h2
          cases h1
          exact addRow_parts (s' := s2) H _ hc h2
        · rename_i h2
          cases h1
          exact addRow_parts H _ hc h2
    rw [h1] at hr
    cases go with
    | false => cases hr; exact closed s1 b
    | true =>
      simp only at hr
      cases h2 : s1.addRows T (T.content.drop s1.index) with
      | error e => rw [h2] at hr; cases hr
      | ok q =>
        obtain ⟨cn, s2⟩ := q
        have d := addRows_parts H _ b h2
        rw [h2] at hr
        cases cn with
        | true => cases hr; intro a ha; cases ha
        | false => cases hr; exact closed s2 d

end Verif
