import Verif.Props.C35_C37_Content
import Verif.Lemmas.TableCong
/-! A content box runs in the same way with two functions for its paragraphs and tables that agree where they are used. -/
namespace Verif
open Spec

variable {σ P B C : Type}

/-- an element that is neither a group nor a box, and fine for columns of these widths -/
def ElFine (fine : σ → Rat → Prop) (Ws : List Rat) : CEl σ → Prop
  | .leaf c st => ∀ W ∈ Ws, fine c (W - st.left - st.right)
  | .image _ => True
  | _ => False

def ElsFine (fine : σ → Rat → Prop) (Ws : List Rat) (l : List (CEl σ)) : Prop := ∀ e ∈ l, ElFine fine Ws e

/-- a box whose elements are fine -/
structure BoxFine (fine : σ → Rat → Prop) (Ws : List Rat) (n : Nat) (g : Option Rat) (f : CBox σ) : Prop where
  elements : ElsFine fine Ws f.elements
  delayed : ElsFine fine Ws f.delayed
  section_ : ElsFine fine Ws f.sectionDelayed
  width : f.colWidth ∈ Ws
  same : f.cols = n ∧ f.gapOpt = g

section
variable {fine : σ → Rat → Prop} {Ws : List Rat} {n : Nat} {g : Option Rat} {exec exec' : σ → Rat → Rat → Rat → Rat → Except PyErr (CellOut σ P B C)}

theorem descend_width (f : CBox σ) (st : CStyle) (b : Bool) : (f.descend st b).colWidth = f.colWidth := by
  unfold CBox.descend
  split <;> rfl

theorem leaf_cong (H : SameWhere fine exec exec') {f : CBox σ} {w : COut P B C} {c : σ} {st : CStyle} {a b : Bool}
    (hc : ElFine fine Ws (.leaf c st)) (hW : f.colWidth ∈ Ws) : f.leaf exec' w c st a b = f.leaf exec w c st a b := by
  unfold CBox.leaf
  simp only
  rw [H.same c _ _ _ _ (by
    unfold CBox.elWidth
    rw [descend_width]
    exact hc _ hW)]

theorem process_cong (H : SameWhere fine exec exec') {f : CBox σ} {w : COut P B C} {e : CEl σ} (he : ElFine fine Ws e) (hW : f.colWidth ∈ Ws) :
    f.process exec' w e = f.process exec w e ∧
    ∀ a e' f' w', f.process exec w e = .ok (a, e', f', w') → ElFine fine Ws e' ∧ (∀ d, a.delayed = some d → ElFine fine Ws d) ∧ BoxFrame f f' := by
  cases e with
  | leaf c st =>
    have hsame := leaf_cong H (f := f) (w := w) (a := true) (b := true) he hW
    refine ⟨by unfold CBox.process; simp only [hsame], ?_⟩
    intro a e' f' w' h
    unfold CBox.process at h
    simp only at h
    cases h1 : f.leaf exec w c st true true with
    | error e => rw [h1] at h; cases h
    | ok q =>
      obtain ⟨r, f1, w1⟩ := q
      rw [h1] at h
      have hfr := leaf_frame h1
      cases r with
      | none =>
        simp only [Except.ok.injEq, Prod.mk.injEq] at h
        obtain ⟨rfl, rfl, rfl, rfl⟩ := h
        exact ⟨he, by simp, hfr⟩
      | some c' =>
        simp only [Except.ok.injEq, Prod.mk.injEq] at h
        obtain ⟨rfl, rfl, rfl, rfl⟩ := h
        refine ⟨he, ?_, hfr⟩
        intro d hd
        cases hd
        rw [← hsame] at h1
        unfold CBox.leaf at h1
        simp only at h1
        split at h1
        · cases h1
        · rename_i o ho
          simp only [if_true, Except.ok.injEq, Prod.mk.injEq] at h1
          obtain ⟨hr, -, -⟩ := h1
          split at hr
          · cases hr
          · cases hr
            intro W hWs
            exact H.next _ _ _ _ _ _ _ ho (he W hWs)
  | image i =>
    refine ⟨rfl, ?_⟩
    intro a e' f' w' h
    unfold CBox.process at h
    simp only at h
    cases h1 : f.image w i true true with
    | error e => rw [h1] at h; cases h
    | ok q =>
      obtain ⟨r, f1, w1⟩ := q
      rw [h1] at h
      have hfr := image_frame h1
      cases r with
      | none =>
        simp only [Except.ok.injEq, Prod.mk.injEq] at h
        obtain ⟨rfl, rfl, rfl, rfl⟩ := h
        exact ⟨trivial, by simp, hfr⟩
      | some i' =>
        simp only [Except.ok.injEq, Prod.mk.injEq] at h
        obtain ⟨rfl, rfl, rfl, rfl⟩ := h
        exact ⟨trivial, by rintro d ⟨⟩; trivial, hfr⟩
  | group l t st => exact he.elim
  | child => exact he.elim

theorem mem_replaceAt {α : Type} {l : List α} {n : Nat} {r : Option α} {x : α} (h : x ∈ replaceAt l n r) : x ∈ l ∨ r = some x := by
  unfold replaceAt at h
  cases r with
  | none => exact Or.inl (List.mem_of_mem_eraseIdx h)
  | some d =>
    rcases List.mem_or_eq_of_mem_set h with h | h
    · exact Or.inl h
    · exact Or.inr (by rw [h])

theorem addDelayed_cong (H : SameWhere fine exec exec') (fuel : Nat) {m : Nat} {f : CBox σ} {w : COut P B C} (hf : BoxFine fine Ws n g f) :
    f.addDelayed exec' fuel m w = f.addDelayed exec fuel m w ∧
    ∀ act f' w', f.addDelayed exec fuel m w = .ok (act, f', w') → BoxFine fine Ws n g f' := by
  induction fuel generalizing m f w with
  | zero => exact ⟨rfl, fun act f' w' h => by cases h⟩
  | succ fuel ih =>
    simp only [CBox.addDelayed]
    cases hd : f.delayed[m]? with
    | none =>
      refine ⟨rfl, fun act f' w' h => ?_⟩
      simp only [Except.ok.injEq, Prod.mk.injEq] at h
      rw [← h.2.1]
      exact hf
    | some e =>
      obtain ⟨p1, p2⟩ := process_cong H (w := w) (hf.delayed e (List.mem_of_getElem? hd)) hf.width
      simp only [p1]
      cases h1 : f.process exec w e with
      | error e => exact ⟨rfl, fun act f' w' h => by cases h⟩
      | ok q =>
        obtain ⟨a, e', f1, w1⟩ := q
        obtain ⟨q1, q2, q3⟩ := p2 a e' f1 w1 h1
        have hf1 : BoxFine fine Ws n g { f1 with delayed := replaceAt f1.delayed m a.delayed } := by
          refine ⟨?_, ?_, ?_, ?_, ⟨q3.cols.trans hf.same.1, q3.gapOpt.trans hf.same.2⟩⟩
          · show ElsFine fine Ws f1.elements
            rw [q3.elements]; exact hf.elements
          · intro x hx
            rcases mem_replaceAt hx with h | h
            · rw [q3.delayed] at h
              exact hf.delayed x h
            · exact q2 x h
          · show ElsFine fine Ws f1.sectionDelayed
            rw [q3.sectionDelayed]; exact hf.section_
          · show f1.colWidth ∈ Ws
            rw [q3.colWidth]; exact hf.width
        simp only
        split
        · refine ⟨rfl, fun act f' w' h => ?_⟩
          simp only [Except.ok.injEq, Prod.mk.injEq] at h
          rw [← h.2.1]
          exact hf1
        · exact ih hf1

/-- the box after an element of its list -/
def CBox.after (f : CBox σ) (a : CAns σ) (e : CEl σ) : CBox σ :=
  { f with elements := f.elements.set f.index e, index := f.index + 1, delayed := f.delayed ++ a.delayed.toList }

theorem contentElements_flat (exec : σ → Rat → Rat → Rat → Rat → Except PyErr (CellOut σ P B C)) (fuel : Nat) (f : CBox σ) (anc : List (CBox σ)) (w : COut P B C)
    {e : CEl σ} (he : f.elements[f.index]? = some e) (hfl : Spec.flat e = true) :
    contentElements exec (fuel + 1) (f :: anc) w = match f.process exec w e with
      | .error e => .error (some e)
      | .ok (a, e, f, w) => if a.next then .ok (.next, f.after a e :: anc, w) else contentElements exec fuel (f.after a e :: anc) w := by
  rw [contentElements, he]
  cases e with
  | leaf c st => rfl
  | image i => rfl
  | group l t st => rfl
  | child => cases hfl

theorem ElFine.flat {e : CEl σ} (h : ElFine fine Ws e) : Spec.flat e = true := by
  cases e with
  | leaf c st => rfl
  | image i => rfl
  | group l t st => exact h.elim
  | child => exact h.elim

theorem BoxFine.after {f f1 : CBox σ} {a : CAns σ} {e : CEl σ} (hf : BoxFine fine Ws n g f) (h1 : ElFine fine Ws e)
    (h2 : ∀ d, a.delayed = some d → ElFine fine Ws d) (h3 : BoxFrame f f1) : BoxFine fine Ws n g (f1.after a e) := by
  refine ⟨?_, ?_, ?_, ?_, ⟨h3.cols.trans hf.same.1, h3.gapOpt.trans hf.same.2⟩⟩
  · intro x hx
    rcases List.mem_or_eq_of_mem_set hx with h | h
    · rw [h3.elements] at h
      exact hf.elements x h
    · rw [h]; exact h1
  · intro x hx
    have hx : x ∈ f1.delayed ++ a.delayed.toList := hx
    rw [List.mem_append, Option.mem_toList] at hx
    rcases hx with h | h
    · rw [h3.delayed] at h
      exact hf.delayed x h
    · exact h2 x h
  · show ElsFine fine Ws f1.sectionDelayed
    rw [h3.sectionDelayed]; exact hf.section_
  · show f1.colWidth ∈ Ws
    rw [h3.colWidth]; exact hf.width

theorem contentElements_cong (H : SameWhere fine exec exec') (fuel : Nat) {f : CBox σ} {w : COut P B C} (hf : BoxFine fine Ws n g f) :
    contentElements exec' fuel [f] w = contentElements exec fuel [f] w ∧
    ∀ act stk w', contentElements exec fuel [f] w = .ok (act, stk, w') → ∃ f', stk = [f'] ∧ BoxFine fine Ws n g f' ∧ (act = .next ∨ act = .cont) := by
  induction fuel generalizing f w with
  | zero => exact ⟨by simp [contentElements], fun act stk w' h => by simp [contentElements] at h⟩
  | succ fuel ih =>
    cases he : f.elements[f.index]? with
    | none =>
      rw [contentElements, contentElements, he]
      refine ⟨rfl, fun act stk w' h => ?_⟩
      simp only [Except.ok.injEq, Prod.mk.injEq] at h
      exact ⟨f, h.2.1.symm, hf, Or.inr h.1.symm⟩
    | some e =>
      have hfe := hf.elements e (List.mem_of_getElem? he)
      rw [contentElements_flat exec' fuel f [] w he hfe.flat, contentElements_flat exec fuel f [] w he hfe.flat]
      obtain ⟨p1, p2⟩ := process_cong H (w := w) hfe hf.width
      rw [p1]
      cases h1 : f.process exec w e with
      | error e => exact ⟨rfl, fun act f' w' h => by cases h⟩
      | ok q =>
        obtain ⟨a, e', f1, w1⟩ := q
        obtain ⟨q1, q2, q3⟩ := p2 a e' f1 w1 h1
        have hf1 := hf.after q1 q2 q3
        simp only
        split
        · refine ⟨rfl, fun act f' w' h => ?_⟩
          simp only [Except.ok.injEq, Prod.mk.injEq] at h
          exact ⟨_, h.2.1.symm, hf1, Or.inl h.1.symm⟩
        · exact ih hf1

theorem BoxFine.reset {f : CBox σ} (hf : BoxFine fine Ws n g f) (w : COut P B C) : BoxFine fine Ws n g (f.reset w).2.1 := by
  unfold CBox.reset
  split
  · exact hf
  · simp only
    cases f.diff with
    | none => exact ⟨hf.elements, hf.section_, hf.section_, hf.width, hf.same⟩
    | some d => exact ⟨hf.elements, hf.section_, hf.section_, hf.width, hf.same⟩

theorem answer_fine {f : CBox σ} {w w' : COut P B C} {a a' : CAct} {stk : List (CBox σ)} (hf : BoxFine fine Ws n g f)
    (h : answerAct a [f] w = (a', stk, w')) : ∃ f', stk = [f'] ∧ BoxFine fine Ws n g f' := by
  have hbrk : ∀ b : CBox σ, BoxFine fine Ws n g b → ∀ a' stk w', breakAct b [] w = (a', stk, w') → ∃ f', stk = [f'] ∧ BoxFine fine Ws n g f' := by
    intro b hg a' stk w' h
    unfold breakAct at h
    split at h
    · simp only [Prod.mk.injEq] at h
      exact ⟨_, h.2.1.symm, hg.reset w⟩
    · simp only [Prod.mk.injEq] at h
      exact ⟨_, h.2.1.symm, hg⟩
  have hf2 : BoxFine fine Ws n g { f with forward := true } := ⟨hf.elements, hf.delayed, hf.section_, hf.width, hf.same⟩
  have hf3 : BoxFine fine Ws n g { f with sectionIndex := f.index, sectionDelayed := f.delayed, childrenMemory := [] } := ⟨hf.elements, hf.delayed, hf.delayed, hf.width, hf.same⟩
  have hf4 : BoxFine fine Ws n g { f with column := f.column + 1, starting := true, y := f.minY } := ⟨hf.elements, hf.delayed, hf.section_, hf.width, hf.same⟩
  cases a with
  | next =>
    simp only [answerAct, nextSection] at h
    by_cases hc : f.column + 1 = f.cols
    · rw [if_pos hc] at h
      by_cases hr : f.resetting = true
      · rw [if_pos hr] at h
        exact hbrk _ hf2 _ _ _ h
      · rw [if_neg hr] at h
        simp only [Prod.mk.injEq] at h
        exact ⟨_, h.2.1.symm, hf3⟩
    · rw [if_neg hc] at h
      simp only [Option.isSome_none, Bool.false_eq_true, and_false, if_false, Option.isNone_none, if_true, Prod.mk.injEq] at h
      exact ⟨_, h.2.1.symm, hf4⟩
  | brk => exact hbrk f hf _ _ _ h
  | partialNext =>
    simp only [answerAct, Prod.mk.injEq] at h
    exact ⟨_, h.2.1.symm, hf⟩
  | interrupt => simp only [answerAct, Prod.mk.injEq] at h; exact ⟨_, h.2.1.symm, hf⟩
  | cont => simp only [answerAct, Prod.mk.injEq] at h; exact ⟨_, h.2.1.symm, hf⟩
  | retry => simp only [answerAct, Prod.mk.injEq] at h; exact ⟨_, h.2.1.symm, hf⟩

/-- what `run` does after `add_elements`, content.py:578-602 -/
def afterElements (run : List (CBox σ) → COut P B C → CRun (CAct × List (CBox σ) × COut P B C)) :
    CAct × List (CBox σ) × COut P B C → CRun (CAct × List (CBox σ) × COut P B C)
  | (.retry, stk, w) => run stk w
  | (.interrupt, stk, w) => .ok (.interrupt, stk, w)
  | (.brk, stk, w) => .ok (.brk, stk, w)
  | (.partialNext, stk, w) => .ok (.partialNext, stk, w)
  | (_, [], w) => .ok (.cont, [], w)
  | (_, f :: anc, w) =>
    if f.delayed ≠ [] then run (f :: anc) w
    else if ¬ f.resetting ∧ f.cols > 1 then
      if lastOfResetting (f :: anc) then .ok (.cont, f :: anc, w)
      else match startResetting (f :: anc) with
        | [] => .ok (.brk, [], w)
        | f :: anc =>
          if f.willReset then
            let r := f.reset w
            run (r.2.1 :: anc) r.2.2
          else .ok (.brk, f :: anc, w)
    else if f.resetting then
      let r := CBox.reset { f with forward := false } w
      if r.1 then run (r.2.1 :: anc) r.2.2 else .ok (.cont, r.2.1 :: anc, r.2.2)
    else .ok (.cont, f :: anc, w)

/-- what `run` does after `add_delayed`, content.py:566-578 -/
def afterDelayed (exec : σ → Rat → Rat → Rat → Rat → Except PyErr (CellOut σ P B C)) (fuel : Nat) :
    CAct × List (CBox σ) × COut P B C → CRun (CAct × List (CBox σ) × COut P B C)
  | (.retry, stk, w) => contentRun exec fuel stk w
  | (.interrupt, stk, w) => .ok (.interrupt, stk, w)
  | (.brk, stk, w) => .ok (.brk, stk, w)
  | (.partialNext, stk, w) => .ok (.partialNext, stk, w)
  | (_, stk, w) => match contentElements exec fuel stk w with
    | .error e => .error e
    | .ok (a, stk, w) => afterElements (contentRun exec fuel) (answerAct a stk w)

theorem contentRun_succ (exec : σ → Rat → Rat → Rat → Rat → Except PyErr (CellOut σ P B C)) (fuel : Nat) (f : CBox σ) (anc : List (CBox σ)) (w : COut P B C) :
    contentRun exec (fuel + 1) (f :: anc) w = match f.addDelayed exec fuel 0 w with
      | .error e => .error e
      | .ok (a, f, w) => afterDelayed exec fuel (answerAct a (f :: anc) w) := by
  rw [contentRun]
  cases f.addDelayed exec fuel 0 w with
  | error e => rfl
  | ok q =>
    obtain ⟨a, f1, w1⟩ := q
    simp only
    generalize answerAct a (f1 :: anc) w1 = r
    obtain ⟨a2, s2, w2⟩ := r
    cases a2 <;> rfl

theorem afterElements_cong {run run' : List (CBox σ) → COut P B C → CRun (CAct × List (CBox σ) × COut P B C)}
    (hrun : ∀ f w, BoxFine fine Ws n g f → run' [f] w = run [f] w ∧ ∀ act stk w', run [f] w = .ok (act, stk, w') → ∃ f', stk = [f'] ∧ BoxFine fine Ws n g f')
    (a : CAct) {f : CBox σ} (w : COut P B C) (hf : BoxFine fine Ws n g f) :
    afterElements run' (a, [f], w) = afterElements run (a, [f], w) ∧
    ∀ act stk w', afterElements run (a, [f], w) = .ok (act, stk, w') → ∃ f', stk = [f'] ∧ BoxFine fine Ws n g f' := by
  have stop : ∀ (x : CAct) (b : CBox σ) (v : COut P B C), BoxFine fine Ws n g b →
      ∀ act stk w', (.ok (x, [b], v) : CRun (CAct × List (CBox σ) × COut P B C)) = .ok (act, stk, w') → ∃ f', stk = [f'] ∧ BoxFine fine Ws n g f' := by
    intro x b v hg _ _ _ h
    simp only [Except.ok.injEq, Prod.mk.injEq] at h
    exact ⟨_, h.2.1.symm, hg⟩
  have tail : ∀ x : CAct, x = .next ∨ x = .cont → afterElements run' (x, [f], w) = afterElements run (x, [f], w) ∧
      ∀ act stk w', afterElements run (x, [f], w) = .ok (act, stk, w') → ∃ f', stk = [f'] ∧ BoxFine fine Ws n g f' := by
    have hf1 : BoxFine fine Ws n g { f with willReset := true } := ⟨hf.elements, hf.delayed, hf.section_, hf.width, hf.same⟩
    have hf2 : BoxFine fine Ws n g { f with forward := false } := ⟨hf.elements, hf.delayed, hf.section_, hf.width, hf.same⟩
    rintro x (rfl | rfl) <;>
    · simp only [afterElements]
      split
      · exact hrun f w hf
      · split
        · simp only [lastOfResetting, Bool.false_eq_true, if_false, startResetting, if_true]
          exact hrun _ _ (hf1.reset w)
        · split
          · split
            · exact hrun _ _ (hf2.reset w)
            · exact ⟨rfl, stop _ _ _ (hf2.reset w)⟩
          · exact ⟨rfl, stop _ _ _ hf⟩
  cases a with
  | retry => exact hrun f w hf
  | interrupt => exact ⟨rfl, stop _ _ _ hf⟩
  | brk => exact ⟨rfl, stop _ _ _ hf⟩
  | partialNext => exact ⟨rfl, stop _ _ _ hf⟩
  | next => exact tail _ (Or.inl rfl)
  | cont => exact tail _ (Or.inr rfl)

theorem contentRun_cong (H : SameWhere fine exec exec') (fuel : Nat) {f : CBox σ} {w : COut P B C} (hf : BoxFine fine Ws n g f) :
    contentRun exec' fuel [f] w = contentRun exec fuel [f] w ∧
    ∀ act stk w', contentRun exec fuel [f] w = .ok (act, stk, w') → ∃ f', stk = [f'] ∧ BoxFine fine Ws n g f' := by
  induction fuel generalizing f w with
  | zero => exact ⟨by simp [contentRun], fun act stk w' h => by simp [contentRun] at h⟩
  | succ fuel ih =>
    rw [contentRun_succ, contentRun_succ]
    obtain ⟨d1, d2⟩ := addDelayed_cong H fuel (m := 0) (w := w) hf
    rw [d1]
    cases h1 : f.addDelayed exec fuel 0 w with
    | error e => exact ⟨rfl, fun _ _ _ h => by cases h⟩
    | ok q =>
      obtain ⟨a, f1, w1⟩ := q
      have hf1 := d2 a f1 w1 h1
      simp only
      generalize ha : answerAct a [f1] w1 = r
      obtain ⟨a2, s2, w2⟩ := r
      obtain ⟨f2, rfl, hf2⟩ := answer_fine hf1 ha
      have stop : ∀ (x : CAct), ∀ act stk w', (.ok (x, [f2], w2) : CRun (CAct × List (CBox σ) × COut P B C)) = .ok (act, stk, w') → ∃ f', stk = [f'] ∧ BoxFine fine Ws n g f' := by
        intro x _ _ _ h
        simp only [Except.ok.injEq, Prod.mk.injEq] at h
        exact ⟨_, h.2.1.symm, hf2⟩
      have go : ∀ x : CAct, x = .next ∨ x = .cont → afterDelayed exec' fuel (x, [f2], w2) = afterDelayed exec fuel (x, [f2], w2) ∧
          ∀ act stk w', afterDelayed exec fuel (x, [f2], w2) = .ok (act, stk, w') → ∃ f', stk = [f'] ∧ BoxFine fine Ws n g f' := by
        rintro x (rfl | rfl) <;>
        · simp only [afterDelayed]
          obtain ⟨e1, e2⟩ := contentElements_cong H fuel (w := w2) hf2
          rw [e1]
          cases h2 : contentElements exec fuel [f2] w2 with
          | error e => exact ⟨rfl, fun _ _ _ h => by cases h⟩
          | ok q =>
            obtain ⟨a3, s3, w3⟩ := q
            obtain ⟨f3, rfl, hf3, -⟩ := e2 a3 s3 w3 h2
            simp only
            generalize ha4 : answerAct a3 [f3] w3 = r
            obtain ⟨a4, s4, w4⟩ := r
            obtain ⟨f4, rfl, hf4⟩ := answer_fine hf3 ha4
            exact afterElements_cong (fun f w hf => ih hf) a4 w4 hf4
      cases a2 with
      | retry => exact ih hf2
      | interrupt => exact ⟨rfl, stop _⟩
      | brk => exact ⟨rfl, stop _⟩
      | partialNext => exact ⟨rfl, stop _⟩
      | next => exact go _ (Or.inl rfl)
      | cont => exact go _ (Or.inr rfl)

/-- the width of the columns of a box of width `W`, content.py:389-395 -/
def colWidthOf (cols : Nat) (gap : Option Rat) (W : Rat) : Rat := (W - gap.getD (max (W / 25) 7) * ((cols : Rat) - 1)) / cols

/-- a content box between two runs -/
structure ContentFine (fine : σ → Rat → Prop) (Ws : List Rat) (s : CContent σ P B C) : Prop where
  elements : ElsFine fine Ws s.elements
  box : ∀ f, s.box = some f → ElsFine fine Ws f.elements ∧ ElsFine fine Ws f.sectionDelayed ∧ f.cols = s.cols ∧ f.gapOpt = s.gap

theorem contentBox_run_cong (H : SameWhere fine exec exec') {fuel : Nat} {s : CContent σ P B C} {x y w h : Rat} (hs : ContentFine fine Ws s)
    (hW : colWidthOf s.cols s.gap w ∈ Ws) :
    s.run exec' fuel x y w h = s.run exec fuel x y w h ∧ ∀ s', s.run exec fuel x y w h = .ok s' → ContentFine fine Ws s' ∧ s'.cols = s.cols ∧ s'.gap = s.gap := by
  unfold CContent.run
  split
  · exact ⟨rfl, fun _ h => by cases h⟩
  · simp only
    generalize hf0 : (s.box.getD (CBox.blank s.cols s.gap s.elements true)).setup x w y (y - h) 0 = f
    have hf : BoxFine fine Ws s.cols s.gap f := by
      rw [← hf0]
      cases hb : s.box with
      | none => exact ⟨hs.elements, by simp [ElsFine, CBox.setup, CBox.blank], by simp [ElsFine, CBox.setup, CBox.blank], hW, rfl, rfl⟩
      | some b =>
        obtain ⟨b1, b2, b3, b4⟩ := hs.box b hb
        refine ⟨b1, b2, b2, ?_, b3, b4⟩
        show (w - b.gapOpt.getD (max (w / 25) 7) * ((b.cols : Rat) - 1)) / b.cols ∈ Ws
        rw [b3, b4]
        exact hW
    obtain ⟨r1, r2⟩ := contentRun_cong H fuel (w := ⟨[], [], []⟩) hf
    rw [r1]
    refine ⟨rfl, fun s' hr => ?_⟩
    cases h1 : contentRun exec fuel [f] (⟨[], [], []⟩ : COut P B C) with
    | error e => rw [h1] at hr; cases hr
    | ok q =>
      obtain ⟨act, stk, w1⟩ := q
      obtain ⟨f1, rfl, hf1⟩ := r2 act stk w1 h1
      rw [h1] at hr
      simp only [Except.ok.injEq] at hr
      subst hr
      exact ⟨⟨hs.elements, fun g hg => by cases hg; exact ⟨hf1.elements, hf1.section_, hf1.same⟩⟩, rfl, rfl⟩

/-- a box whose elements are fine runs in the same way -/
theorem contentBox_runs_cong (H : SameWhere fine exec exec') {fuel : Nat} (rects : List (Rat × Rat × Rat × Rat)) {s : CContent σ P B C} (hs : ContentFine fine Ws s)
    (hW : ∀ r ∈ rects, colWidthOf s.cols s.gap r.2.2.1 ∈ Ws) :
    s.runs exec' fuel rects = s.runs exec fuel rects ∧ ∀ ps s', s.runs exec fuel rects = .ok (ps, s') → ContentFine fine Ws s' := by
  induction rects generalizing s with
  | nil =>
    refine ⟨rfl, fun _ _ h => ?_⟩
    cases h
    exact hs
  | cons r rects ih =>
    obtain ⟨x, y, w, h⟩ := r
    simp only [CContent.runs]
    split
    · refine ⟨rfl, fun _ _ h => ?_⟩
      cases h
      exact hs
    · obtain ⟨a1, a2⟩ := contentBox_run_cong H (fuel := fuel) (x := x) (y := y) (h := h) hs (hW (x, y, w, h) (by simp))
      rw [a1]
      cases h1 : s.run exec fuel x y w h with
      | error e => exact ⟨rfl, fun _ _ h => by cases h⟩
      | ok s1 =>
        obtain ⟨b1, b2, b3⟩ := a2 s1 h1
        obtain ⟨c1, c2⟩ := ih b1 (fun r hr => by rw [b2, b3]; exact hW r (by simp [hr]))
        simp only [c1]
        refine ⟨trivial, fun ps s' hh => ?_⟩
        cases h2 : s1.runs exec fuel rects with
        | error e => rw [h2] at hh; cases hh
        | ok q =>
          obtain ⟨ps2, s2⟩ := q
          rw [h2] at hh
          simp only [Except.ok.injEq, Prod.mk.injEq] at hh
          rw [← hh.2]
          exact c2 ps2 s2 h2

theorem ContentFine.new (cols : Nat) (gap : Option Rat) {els : List (CEl σ)} (h : ElsFine fine Ws els) :
    ContentFine fine Ws (CContent.new cols gap els : CContent σ P B C) := ⟨h, fun f hf => by cases hf⟩

end
end Verif
