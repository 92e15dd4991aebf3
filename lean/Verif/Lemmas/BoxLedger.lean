import Verif.Props.C85_InBox
import Verif.Spec.Ledger
/-! A content box draws what its contents draw. -/
namespace Verif
open Spec

variable {σ P B C : Type}

theorem leafParts_append (a b : List (CPart P)) : leafParts (a ++ b) = leafParts a ++ leafParts b := by simp [leafParts]

theorem leafParts_leaf (l : List P) : leafParts (l.map .leaf) = l := by
  induction l with
  | nil => rfl
  | cons a l ih => exact congrArg (a :: ·) ih

/-- what was drawn between two moments -/
def Adds (exec : σ → Rat → Rat → Rat → Rat → Except PyErr (CellOut σ P B C)) (one : Prop) (w w' : COut P B C) : Prop :=
  ∃ calls : List (Call σ P B C), (∀ k ∈ calls, exec k.thing k.x k.y k.w k.h = .ok k.out) ∧ w'.lines = w.lines ++ calls.flatMap (·.out.lines) ∧
    w'.fills = w.fills ++ calls.flatMap (·.out.fills) ∧ (leafParts w'.parts).Sublist (leafParts w.parts ++ calls.flatMap (·.out.parts)) ∧
    (one → leafParts w'.parts = leafParts w.parts ++ calls.flatMap (·.out.parts))

section
variable {exec : σ → Rat → Rat → Rat → Rat → Except PyErr (CellOut σ P B C)} {one : Prop}

theorem Adds.same {w w' : COut P B C} (hl : w'.lines = w.lines) (hf : w'.fills = w.fills) (hp : leafParts w'.parts = leafParts w.parts) : Adds exec one w w' :=
  ⟨[], by simp, by simpa using hl, by simpa using hf, by simp [hp], by simp [hp]⟩

theorem Adds.refl (w : COut P B C) : Adds exec one w w := .same rfl rfl rfl

theorem Adds.trans {w w1 w2 : COut P B C} (h : Adds exec one w w1) (h' : Adds exec one w1 w2) : Adds exec one w w2 := by
  obtain ⟨c, a1, a2, a3, a4, a5⟩ := h
  obtain ⟨d, b1, b2, b3, b4, b5⟩ := h'
  refine ⟨c ++ d, ?_, by simp [b2, a2], by simp [b3, a3], ?_, fun ho => by rw [b5 ho, a5 ho]; simp⟩
  · intro k hk
    rcases List.mem_append.1 hk with hk | hk
    · exact a1 k hk
    · exact b1 k hk
  · refine b4.trans ?_
    rw [List.flatMap_append, ← List.append_assoc]
    exact a4.append (List.Sublist.refl _)

/-- no columns are balanced in this box -/
structure OneBox (f : CBox σ) : Prop where
  cols : f.cols = 1
  calm : f.willReset = false ∧ f.resetting = false
  elements : ∀ e ∈ f.elements, OneColumn e

theorem OneBox.frame {f f' : CBox σ} (h : OneBox f) (hf : BoxFrame f f') : OneBox f' :=
  ⟨hf.cols.trans h.cols, ⟨hf.willReset.trans h.calm.1, hf.resetting.trans h.calm.2⟩, by rw [hf.elements]; exact h.elements⟩

/-- all boxes of the stack are so, if `one` -/
def OneStack (one : Prop) (stk : List (CBox σ)) : Prop := one → ∀ f ∈ stk, OneBox f

theorem OneStack.head {f : CBox σ} {anc : List (CBox σ)} (h : OneStack one (f :: anc)) : one → OneBox f := fun ho => h ho f (by simp)

theorem OneStack.tail {f : CBox σ} {anc : List (CBox σ)} (h : OneStack one (f :: anc)) : OneStack one anc := fun ho g hg => h ho g (by simp [hg])

theorem OneStack.cons {f : CBox σ} {anc : List (CBox σ)} (h : one → OneBox f) (h' : OneStack one anc) : OneStack one (f :: anc) := fun ho g hg => by
  rcases List.mem_cons.1 hg with rfl | hg
  · exact h ho
  · exact h' ho g hg

theorem leaf_adds {f f' : CBox σ} {w w' : COut P B C} {c : σ} {st : CStyle} {top : Bool} {r : Option σ} (h : f.leaf exec w c st true top = .ok (r, f', w')) :
    Adds exec one w w' := by
  obtain ⟨o, ho, -, -, rfl⟩ := leaf_ok h
  have hp : leafParts ((w.add o).parts) = leafParts w.parts ++ o.parts := by rw [COut.add, leafParts_append, leafParts_leaf]
  refine ⟨[⟨c, (f.descend st top).elX st, (f.descend st top).y, (f.descend st top).elWidth st, (f.descend st top).room, o⟩], ?_, ?_, ?_, ?_, ?_⟩
  · intro k hk
    rw [List.mem_singleton] at hk
    rw [hk]
    exact ho
  · simp [COut.add]
  · simp [COut.add]
  · rw [if_pos rfl, hp]; simp
  · intro; rw [if_pos rfl, hp]; simp

theorem image_adds {f f' : CBox σ} {w w' : COut P B C} {i : CImg} {add top : Bool} {r : Option CImg} (h : f.image w i add top = .ok (r, f', w')) :
    Adds exec one w w' := by
  unfold CBox.image at h
  simp only at h
  split at h
  · cases h
  · split at h
    · simp only [Except.ok.injEq, Prod.mk.injEq] at h
      obtain ⟨-, -, rfl⟩ := h
      cases add
      · exact .refl _
      · exact .same rfl rfl (by rw [if_pos rfl, leafParts_append]; simp [leafParts])
    · split at h
      · cases h
      · simp only [Except.ok.injEq, Prod.mk.injEq] at h
        obtain ⟨-, -, rfl⟩ := h
        exact .refl _

theorem groupEl_adds {f f' : CBox σ} {w w' : COut P B C} {e e' : GEl σ} {add top b : Bool} {mh : Option Rat} (h : f.groupEl exec w e add top mh = .ok (b, e', f', w')) :
    BoxFrame f f' ∧ (add = true → Adds exec one w w') := by
  unfold CBox.groupEl at h
  cases e with
  | leaf c st =>
    simp only at h
    split at h
    · cases h
    · rename_i r f1 w1 h1
      simp only [Except.ok.injEq, Prod.mk.injEq] at h
      obtain ⟨-, rfl, rfl, rfl⟩ := h
      exact ⟨leaf_frame h1, fun ha => by rw [ha] at h1; exact leaf_adds h1⟩
  | image i =>
    simp only at h
    split at h
    · cases h
    · rename_i f1 w1 h1
      simp only [Except.ok.injEq, Prod.mk.injEq] at h
      obtain ⟨-, rfl, rfl, rfl⟩ := h
      exact ⟨image_frame h1, fun _ => image_adds h1⟩
    · rename_i i' f1 w1 h1
      simp only [Except.ok.injEq, Prod.mk.injEq] at h
      obtain ⟨-, rfl, rfl, rfl⟩ := h
      exact ⟨image_frame h1, fun _ => image_adds h1⟩

theorem groupTry_frame {w : COut P B C} (l : List (GEl σ)) {top b : Bool} {f f' : CBox σ} {l' : List (GEl σ)}
    (h : CBox.groupTry exec w top l f = .ok (b, l', f')) : BoxFrame f f' := by
  induction l generalizing top b f l' f' with
  | nil =>
    simp only [CBox.groupTry, Except.ok.injEq, Prod.mk.injEq] at h
    obtain ⟨-, rfl, rfl⟩ := h
    exact .refl _
  | cons e l ih =>
    simp only [CBox.groupTry] at h
    cases h1 : f.groupEl exec w e false top none with
    | error e => rw [h1] at h; cases h
    | ok q =>
      obtain ⟨c, e1, f1, w1⟩ := q
      rw [h1] at h
      have k1 := (groupEl_adds (one := True) h1).1
      cases c with
      | false =>
        simp only [Except.ok.injEq, Prod.mk.injEq] at h
        obtain ⟨-, rfl, rfl⟩ := h
        exact k1
      | true =>
        simp only at h
        cases h2 : CBox.groupTry exec w true l f1 with
        | error e => rw [h2] at h; cases h
        | ok q =>
          obtain ⟨b2, l2, f2⟩ := q
          rw [h2] at h
          simp only [Except.ok.injEq, Prod.mk.injEq] at h
          obtain ⟨-, rfl, rfl⟩ := h
          exact k1.trans (ih h2)

theorem groupPut_adds (ratio : Rat) (l : List (GEl σ)) {w w' : COut P B C} {top : Bool} {f f' : CBox σ} {l' : List (GEl σ)}
    (h : CBox.groupPut exec ratio top l f w = .ok (l', f', w')) : BoxFrame f f' ∧ Adds exec one w w' := by
  induction l generalizing top f l' f' w w' with
  | nil =>
    simp only [CBox.groupPut, Except.ok.injEq, Prod.mk.injEq] at h
    obtain ⟨rfl, rfl, rfl⟩ := h
    exact ⟨.refl _, .refl _⟩
  | cons e l ih =>
    simp only [CBox.groupPut] at h
    cases h1 : f.groupEl exec w e true top (e.minHeight.map (· * ratio)) with
    | error e => rw [h1] at h; cases h
    | ok q =>
      obtain ⟨c, e1, f1, w1⟩ := q
      rw [h1] at h
      obtain ⟨k1, k2⟩ := groupEl_adds (one := one) h1
      simp only at h
      cases h2 : CBox.groupPut exec ratio true l f1 w1 with
      | error e => rw [h2] at h; cases h
      | ok q =>
        obtain ⟨l2, f2, w2⟩ := q
        rw [h2] at h
        simp only [Except.ok.injEq, Prod.mk.injEq] at h
        obtain ⟨rfl, rfl, rfl⟩ := h
        obtain ⟨j1, j2⟩ := ih h2
        exact ⟨k1.trans j1, (k2 rfl).trans j2⟩

theorem group_adds {f f' : CBox σ} {w w' : COut P B C} {l l' : List (GEl σ)} {t t' : Nat} {st : CStyle} {b : Bool} (h : f.group exec w l t st = .ok (b, l', t', f', w')) :
    BoxFrame f f' ∧ Adds exec one w w' := by
  unfold CBox.group at h
  have h0 : BoxFrame f (if f.starting then f else { f with y := f.y - st.top }) := by
    split
    · exact .refl _
    · exact ⟨rfl, rfl, rfl, rfl, rfl, rfl, rfl, rfl, rfl, rfl, rfl, rfl, rfl, rfl, rfl, rfl, rfl, rfl, rfl, rfl, rfl, rfl⟩
  have hy : ∀ (k : CBox σ), BoxFrame f k → BoxFrame f { k with y := f.y } := fun k hk =>
    hk.trans ⟨rfl, rfl, rfl, rfl, rfl, rfl, rfl, rfl, rfl, rfl, rfl, rfl, rfl, rfl, rfl, rfl, rfl, rfl, rfl, rfl, rfl, rfl⟩
  cases ht : CBox.groupTry exec w false l (if f.starting then f else { f with y := f.y - st.top }) with
  | error e => rw [ht] at h; cases h
  | ok q =>
    obtain ⟨c, l1, f1⟩ := q
    rw [ht] at h
    have k1 := hy f1 (h0.trans (groupTry_frame l ht))
    cases c with
    | false =>
      simp only at h
      split at h
      · cases h
      · simp only [Except.ok.injEq, Prod.mk.injEq] at h
        obtain ⟨-, rfl, -, rfl, rfl⟩ := h
        exact ⟨k1, .refl _⟩
    | true =>
      simp only at h
      split at h
      · cases h
      · split at h
        · cases h
        · rename_i l2 f2 w2 h2
          simp only [Except.ok.injEq, Prod.mk.injEq] at h
          obtain ⟨-, rfl, -, rfl, rfl⟩ := h
          obtain ⟨j1, j2⟩ := groupPut_adds (one := one) _ l1 h2
          exact ⟨k1.trans j1, j2⟩

theorem process_adds {f f' : CBox σ} {w w' : COut P B C} {e e' : CEl σ} {a : CAns σ} (h : f.process exec w e = .ok (a, e', f', w')) :
    BoxFrame f f' ∧ Adds exec one w w' ∧ OneColumn e' := by
  unfold CBox.process at h
  cases e with
  | leaf c st =>
    simp only at h
    split at h
    · cases h
    · rename_i f1 w1 h1
      simp only [Except.ok.injEq, Prod.mk.injEq] at h
      obtain ⟨rfl, rfl, rfl, rfl⟩ := h
      exact ⟨leaf_frame h1, leaf_adds h1, .leaf⟩
    · rename_i c' f1 w1 h1
      simp only [Except.ok.injEq, Prod.mk.injEq] at h
      obtain ⟨rfl, rfl, rfl, rfl⟩ := h
      exact ⟨leaf_frame h1, leaf_adds h1, .leaf⟩
  | image i =>
    simp only at h
    split at h
    · cases h
    · rename_i f1 w1 h1
      simp only [Except.ok.injEq, Prod.mk.injEq] at h
      obtain ⟨rfl, rfl, rfl, rfl⟩ := h
      exact ⟨image_frame h1, image_adds h1, .image⟩
    · rename_i i' f1 w1 h1
      simp only [Except.ok.injEq, Prod.mk.injEq] at h
      obtain ⟨rfl, rfl, rfl, rfl⟩ := h
      exact ⟨image_frame h1, image_adds h1, .image⟩
  | group l t st =>
    simp only at h
    split at h
    · cases h
    · rename_i l1 t1 f1 w1 h1
      simp only [Except.ok.injEq, Prod.mk.injEq] at h
      obtain ⟨rfl, rfl, rfl, rfl⟩ := h
      obtain ⟨k1, k2⟩ := group_adds (one := one) h1
      exact ⟨k1, k2, .group⟩
    · rename_i l1 t1 f1 w1 h1
      simp only [Except.ok.injEq, Prod.mk.injEq] at h
      obtain ⟨rfl, rfl, rfl, rfl⟩ := h
      obtain ⟨k1, k2⟩ := group_adds (one := one) h1
      exact ⟨k1, k2, .group⟩
  | child => cases h

theorem addDelayed_adds (n k : Nat) {f f' : CBox σ} {w w' : COut P B C} {act : CAct} (hf : one → OneBox f) (h : f.addDelayed exec n k w = .ok (act, f', w')) :
    (one → OneBox f') ∧ Adds exec one w w' := by
  induction n generalizing k f w with
  | zero => cases h
  | succ n ih =>
    rw [CBox.addDelayed] at h
    cases h1 : f.delayed[k]? with
    | none =>
      rw [h1] at h
      simp only [Except.ok.injEq, Prod.mk.injEq] at h
      obtain ⟨-, rfl, rfl⟩ := h
      exact ⟨hf, .refl _⟩
    | some e =>
      rw [h1] at h
      simp only at h
      cases h2 : f.process exec w e with
      | error e => rw [h2] at h; cases h
      | ok q =>
        obtain ⟨a, e', f1, w1⟩ := q
        rw [h2] at h
        simp only at h
        obtain ⟨k1, k2, -⟩ := process_adds (one := one) h2
        have hf2 : one → OneBox { f1 with delayed := replaceAt f1.delayed k a.delayed } := fun ho =>
          have := (hf ho).frame k1
          ⟨this.cols, this.calm, this.elements⟩
        by_cases hn : a.next = true
        · rw [if_pos hn] at h
          simp only [Except.ok.injEq, Prod.mk.injEq] at h
          obtain ⟨-, rfl, rfl⟩ := h
          exact ⟨hf2, k2⟩
        · rw [if_neg hn] at h
          obtain ⟨j1, j2⟩ := ih _ hf2 h
          exact ⟨j1, k2.trans j2⟩

theorem reset_adds {f : CBox σ} {w : COut P B C} (hno : ¬ one) : Adds exec one w (f.reset w).2.2 := by
  unfold CBox.reset
  split
  · exact .refl _
  · refine ⟨[], by simp, by simp, by simp, ?_, fun ho => (hno ho).elim⟩
    simp only [List.flatMap_nil, List.append_nil]
    exact (List.take_sublist _ _).filterMap _

theorem breakAct_adds {f : CBox σ} {anc : List (CBox σ)} {w : COut P B C} (hs : OneStack one (f :: anc)) :
    OneStack one (breakAct f anc w).2.1 ∧ Adds exec one w (breakAct f anc w).2.2 := by
  unfold breakAct
  split
  · rename_i hr
    have hno : ¬ one := fun ho => by
      obtain ⟨a, b⟩ := (hs.head ho).calm
      rw [a, b] at hr
      simp at hr
    exact ⟨fun ho => (hno ho).elim, reset_adds hno⟩
  · exact ⟨hs, .refl _⟩

theorem nextSection_one (parts : Nat) (stk : List (CBox σ)) (mem : Option (List (CMem σ))) (hs : OneStack one stk) : OneStack one (nextSection parts mem stk).2 := by
  induction stk generalizing mem with
  | nil => exact hs
  | cons f anc ih =>
    have hf := hs.head
    simp only [nextSection]
    split
    · split
      · exact .cons (fun ho => ⟨(hf ho).cols, (hf ho).calm, (hf ho).elements⟩) hs.tail
      · split
        · exact .cons (fun ho => ⟨(hf ho).cols, (hf ho).calm, (hf ho).elements⟩) hs.tail
        · have h2 := ih (some (mem.getD [] ++ [⟨f.index, f.delayed⟩])) hs.tail
          split
          · rename_i heq
            rw [heq] at h2
            exact .cons (fun ho => ⟨(hf ho).cols, (hf ho).calm, (hf ho).elements⟩) h2
          · rename_i heq
            rw [heq] at h2
            exact .cons (fun ho => ⟨(hf ho).cols, (hf ho).calm, (hf ho).elements⟩) h2
    · split <;> exact .cons (fun ho => ⟨(hf ho).cols, (hf ho).calm, (hf ho).elements⟩) hs.tail

theorem answerAct_adds (a : CAct) {stk : List (CBox σ)} {w : COut P B C} (hs : OneStack one stk) :
    OneStack one (answerAct a stk w).2.1 ∧ Adds exec one w (answerAct a stk w).2.2 := by
  unfold answerAct
  cases stk with
  | nil => exact ⟨hs, .refl _⟩
  | cons f anc =>
    cases a with
    | brk => exact breakAct_adds hs
    | next =>
      have h := nextSection_one w.parts.length (f :: anc) none hs
      simp only
      split
      · rename_i g anc' heq
        rw [heq] at h
        exact breakAct_adds h
      · rename_i stk' heq
        rw [heq] at h
        exact ⟨h, .refl _⟩
      · rename_i stk' heq
        rw [heq] at h
        exact ⟨h, .refl _⟩
      · rename_i r stk' _ _ _ heq
        rw [heq] at h
        exact ⟨h, .refl _⟩
    | interrupt => exact ⟨hs, .refl _⟩
    | partialNext => exact ⟨hs, .refl _⟩
    | cont => exact ⟨hs, .refl _⟩
    | retry => exact ⟨hs, .refl _⟩

theorem newChild_one {f : CBox σ} {cols : Nat} {gap : Option Rat} {els : List (CEl σ)} {st : CStyle} (last : Bool) (parts : Nat) (hf : OneBox f)
    (he : OneColumn (.child cols gap els st)) : OneBox (f.newChild cols gap els st last parts).1 ∧ OneBox (f.newChild cols gap els st last parts).2 := by
  cases he with
  | child he =>
  have hd := hf.frame (descend_frame f st true)
  unfold CBox.newChild
  simp only
  split
  · exact ⟨⟨hd.cols, hd.calm, hd.elements⟩, ⟨rfl, ⟨rfl, rfl⟩, he⟩⟩
  · split
    · exact ⟨⟨hd.cols, hd.calm, hd.elements⟩, ⟨rfl, ⟨rfl, rfl⟩, he⟩⟩
    · exact ⟨hd, ⟨rfl, ⟨rfl, rfl⟩, he⟩⟩

theorem run_adds (n : Nat) :
    (∀ (stk stk' : List (CBox σ)) (w w' : COut P B C) (a : CAct), OneStack one stk → contentRun exec n stk w = .ok (a, stk', w') →
      OneStack one stk' ∧ Adds exec one w w') ∧
    (∀ (stk stk' : List (CBox σ)) (w w' : COut P B C) (a : CAct), OneStack one stk → contentElements exec n stk w = .ok (a, stk', w') →
      OneStack one stk' ∧ Adds exec one w w') := by
  induction n with
  | zero =>
    constructor
    · intro stk stk' w w' a _ h
      rw [contentRun] at h; cases h
    · intro stk stk' w w' a _ h
      rw [contentElements] at h; cases h
  | succ n ih =>
    obtain ⟨ih1, ih2⟩ := ih
    constructor
    · intro stk stk' w w' a hs h
      cases stk with
      | nil => simp [contentRun] at h
      | cons f anc =>
        rw [contentRun] at h
        cases hd : f.addDelayed exec n 0 w with
        | error e => rw [hd] at h; cases h
        | ok q =>
          obtain ⟨a1, f1, w1⟩ := q
          rw [hd] at h
          obtain ⟨k1, k2⟩ := addDelayed_adds n 0 hs.head hd
          have k3 := answerAct_adds (exec := exec) (w := w1) a1 (OneStack.cons k1 hs.tail)
          simp only at h
          generalize answerAct a1 (f1 :: anc) w1 = r1 at h k3
          obtain ⟨a2, stk2, w2⟩ := r1
          obtain ⟨k3, k4⟩ := k3
          simp only at k3 k4
          replace k4 := k2.trans k4
          have again : ∀ {stk2 : List (CBox σ)} {w2 : COut P B C}, OneStack one stk2 → Adds exec one w w2 →
              contentRun exec n stk2 w2 = .ok (a, stk', w') → OneStack one stk' ∧ Adds exec one w w' := by
            intro stk2 w2 e1 e2 e4
            obtain ⟨i1, i2⟩ := ih1 _ _ _ _ _ e1 e4
            exact ⟨i1, e2.trans i2⟩
          split at h
          · rename_i heq
            cases heq
            exact again k3 k4 h
          · rename_i heq
            cases heq
            cases h
            exact ⟨k3, k4⟩
          · rename_i heq
            cases heq
            cases h
            exact ⟨k3, k4⟩
          · rename_i heq
            cases heq
            cases h
            exact ⟨k3, k4⟩
          · rename_i heq
            cases heq
            cases he : contentElements exec n stk2 w2 with
            | error e => rw [he] at h; cases h
            | ok q =>
              obtain ⟨a3, stk3, w3⟩ := q
              rw [he] at h
              obtain ⟨j5, j6⟩ := ih2 _ _ _ _ _ k3 he
              have k7 := answerAct_adds (exec := exec) (w := w3) a3 j5
              simp only at h
              generalize answerAct a3 stk3 w3 = r3 at h k7
              obtain ⟨a4, stk4, w4⟩ := r3
              obtain ⟨k7, k8⟩ := k7
              simp only at k7 k8
              replace k8 := k4.trans (j6.trans k8)
              split at h
              · rename_i heq
                cases heq
                exact again k7 k8 h
              · rename_i heq
                cases heq
                cases h
                exact ⟨k7, k8⟩
              · rename_i heq
                cases heq
                cases h
                exact ⟨k7, k8⟩
              · rename_i heq
                cases heq
                cases h
                exact ⟨k7, k8⟩
              · rename_i heq
                cases heq
                cases h
                exact ⟨k7, k8⟩
              · rename_i f5 anc5 w5 _ _ _ _ heq
                obtain ⟨-, rfl, rfl⟩ : a4 = a4 ∧ stk4 = f5 :: anc5 ∧ w4 = w5 := by
                  simp only [Prod.mk.injEq] at heq
                  exact ⟨rfl, heq.2.1, heq.2.2⟩
                split at h
                · exact again k7 k8 h
                · split at h
                  · rename_i hcond
                    have hno : ¬ one := fun ho => by have := (k7.head ho).cols; omega
                    split at h
                    · cases h
                      exact ⟨k7, k8⟩
                    · split at h
                      · cases h
                        exact ⟨fun ho => (hno ho).elim, k8⟩
                      · split at h
                        · exact again (fun ho => (hno ho).elim) (k8.trans (reset_adds hno)) h
                        · cases h
                          exact ⟨fun ho => (hno ho).elim, k8⟩
                  · split at h
                    · rename_i hres
                      have hno : ¬ one := fun ho => by have := (k7.head ho).calm.2; rw [this] at hres; cases hres
                      have j2 := reset_adds (exec := exec) (f := { f5 with forward := false }) (w := w4) hno
                      split at h
                      · exact again (fun ho => (hno ho).elim) (k8.trans j2) h
                      · cases h
                        exact ⟨fun ho => (hno ho).elim, k8.trans j2⟩
                    · cases h
                      exact ⟨k7, k8⟩
    · intro stk stk' w w' a hs h
      cases stk with
      | nil => simp [contentElements] at h
      | cons f anc =>
        rw [contentElements] at h
        have hf := hs.head
        split at h
        · cases h
          exact ⟨hs, .refl _⟩
        · rename_i cols gap els st he
          split at h
          · cases h
          · have hstk : OneStack one ((f.newChild cols gap els st (decide (f.index + 1 = f.elements.length)) w.parts.length).2 ::
                (f.newChild cols gap els st (decide (f.index + 1 = f.elements.length)) w.parts.length).1 :: anc) :=
              .cons (fun ho => (newChild_one _ _ (hf ho) ((hf ho).elements _ (List.mem_of_getElem? he))).2)
                (.cons (fun ho => (newChild_one _ _ (hf ho) ((hf ho).elements _ (List.mem_of_getElem? he))).1) hs.tail)
            have hcol : one → cols = 1 := fun ho => by
              have := (hf ho).elements _ (List.mem_of_getElem? he)
              cases this
              rfl
            simp only at h
            split at h
            · cases h
            · rename_i a1 c1 f1 anc1 w1 hr
              obtain ⟨j1, j2⟩ := ih1 _ _ _ _ _ hstk hr
              have hf2 : one → OneBox { f1 with elements := f1.elements.set f1.index (.child cols gap c1.elements st) } := fun ho => by
                have h1 := j1.tail.head ho
                refine ⟨h1.cols, h1.calm, set_mem h1.elements ?_⟩
                rw [hcol ho]
                exact .child (j1.head ho).elements
              have hf3 : one → OneBox (if a1 = .partialNext then { f1 with elements := f1.elements.set f1.index (.child cols gap c1.elements st) }
                  else CBox.childTook { f1 with elements := f1.elements.set f1.index (.child cols gap c1.elements st) } c1 f.y st) := fun ho => by
                split
                · exact hf2 ho
                · exact (hf2 ho).frame (took_frame _ _ _ _)
              generalize (if a1 = .partialNext then { f1 with elements := f1.elements.set f1.index (.child cols gap c1.elements st) }
                  else CBox.childTook { f1 with elements := f1.elements.set f1.index (.child cols gap c1.elements st) } c1 f.y st) = f3 at h hf3
              split at h
              · cases h
                exact ⟨.cons hf3 j1.tail.tail, j2⟩
              · obtain ⟨i1, i2⟩ := ih2 _ _ _ _ _ (OneStack.cons (f := { f3 with starting := false, index := f3.index + 1 })
                  (fun ho => ⟨(hf3 ho).cols, (hf3 ho).calm, (hf3 ho).elements⟩) j1.tail.tail) h
                exact ⟨i1, j2.trans i2⟩
            · rename_i a1 stk1 w1 hne hr
              cases h
              exact ih1 _ _ _ _ _ hstk hr
        · rename_i e _ he
          split at h
          · cases h
          · rename_i a1 e1 f1 w1 hp
            obtain ⟨j1, j2, j3⟩ := process_adds (one := one) hp
            have hf2 : one → OneBox { f1 with elements := f1.elements.set f1.index e1, index := f1.index + 1, delayed := f1.delayed ++ a1.delayed.toList } := fun ho => by
              have h1 := (hf ho).frame j1
              exact ⟨h1.cols, h1.calm, set_mem h1.elements j3⟩
            simp only at h
            split at h
            · cases h
              exact ⟨.cons hf2 hs.tail, j2⟩
            · obtain ⟨i1, i2⟩ := ih2 _ _ _ _ _ (OneStack.cons hf2 hs.tail) h
              exact ⟨i1, j2.trans i2⟩

/-- a box of one column between two runs -/
structure OneContent (s : CContent σ P B C) : Prop where
  cols : s.cols = 1
  elements : ∀ e ∈ s.elements, OneColumn e
  box : ∀ f, s.box = some f → f.cols = 1 ∧ ∀ e ∈ f.elements, OneColumn e

theorem content_run_adds {s s' : CContent σ P B C} (hs : one → OneContent s) {fuel : Nat} {x y w h : Rat} (hr : s.run exec fuel x y w h = .ok s') :
    (one → OneContent s') ∧ ∃ calls, Ledger exec one calls s'.out := by
  unfold CContent.run at hr
  split at hr
  · cases hr
  · simp only at hr
    have hbox : one → OneBox ((s.box.getD (CBox.blank s.cols s.gap s.elements true)).setup x w y (y - h) 0) := by
      intro ho
      have hs := hs ho
      cases hb : s.box with
      | none => exact ⟨hs.cols, ⟨rfl, rfl⟩, hs.elements⟩
      | some f => exact ⟨(hs.box f hb).1, ⟨rfl, rfl⟩, (hs.box f hb).2⟩
    generalize (s.box.getD (CBox.blank s.cols s.gap s.elements true)).setup x w y (y - h) 0 = f0 at hr hbox
    split at hr
    · cases hr
    · rename_i a f1 l1 w1 h1
      cases hr
      obtain ⟨k1, calls, c1, c2, c3, c4, c5⟩ := (run_adds (one := one) fuel).1 _ _ _ _ _ (OneStack.cons hbox (fun _ _ h => by cases h)) h1
      refine ⟨fun ho => ⟨(hs ho).cols, (hs ho).elements, ?_⟩, calls, c1, by simpa using c2, by simpa using c3, by simpa [leafParts] using c4, fun ho => by simpa [leafParts] using c5 ho⟩
      intro f hf
      cases hf
      exact ⟨(k1.head ho).cols, (k1.head ho).elements⟩
    · cases hr

theorem content_runs_adds (fuel : Nat) (rects : List (Rat × Rat × Rat × Rat)) : ∀ (s s' : CContent σ P B C) (ps : List (CPart P)), (one → OneContent s) →
    s.runs exec fuel rects = .ok (ps, s') → one → OneContent s' := by
  induction rects with
  | nil =>
    intro s s' ps hs h
    cases h
    exact hs
  | cons q l ih =>
    obtain ⟨x, y, w, ht⟩ := q
    intro s s' ps hs h
    rw [CContent.runs] at h
    split at h
    · cases h
      exact hs
    · split at h
      · cases h
      · rename_i s1 h1
        split at h
        · cases h
        · rename_i ps2 s2 h2
          cases h
          exact ih _ _ _ (content_run_adds hs h1).1 h2

end

end Verif
