import Verif.Props.C35_C37_Content
import Mathlib.Algebra.Order.Archimedean.Basic
/-! C36: balancing the columns of a content box ends. -/
namespace Verif
open Spec

variable {σ P B C : Type}

/-- contents that need a bounded height: with at least that height they are finished, and take no more -/
def Spec.Bounded (exec : σ → Rat → Rat → Rat → Rat → Except PyErr (CellOut σ P B C)) (bound : σ → Rat) : Prop :=
  ∀ c x y w h o, bound c ≤ h → exec c x y w h = .ok o → o.finished = true ∧ o.height ≤ bound c

/-- paragraphs, tables, and images with a known place -/
def Spec.simple : CEl σ → Bool
  | .leaf _ _ => true
  | .image i => i.style.place ≠ .other
  | _ => false

theorem simple_flat {e : CEl σ} (h : simple e = true) : Spec.flat e = true := by
  cases e <;> first | rfl | cases h

/-- atoms do not matter here -/
theorem honest_trivial (exec : σ → Rat → Rat → Rat → Rat → Except PyErr (CellOut σ P B C)) : Honest exec (fun _ => ([] : List Unit)) (fun _ => []) :=
  ⟨by intros; simp, by intros; rfl, by intros; simp⟩

section
variable {exec : σ → Rat → Rat → Rat → Rat → Except PyErr (CellOut σ P B C)}

/-- one element -/
structure Step1 (f f' : CBox σ) (e e' : CEl σ) (a : CAns σ) : Prop where
  frame : BoxFrame f f'
  same : simple e' = true
  kind : ∀ d, a.delayed = some d → simple d = true
  next : a.next = true → a.delayed ≠ none
  stay : a.next = false → a.delayed ≠ none → a.flow = true
  gone : a.delayed = none → a.next = false ∧ a.flow = false

theorem process_simple {f f' : CBox σ} {w w' : COut P B C} {e e' : CEl σ} {a : CAns σ} (hf : simple e = true)
    (h : f.process exec w e = .ok (a, e', f', w')) : Step1 f f' e e' a := by
  obtain ⟨u, hp⟩ := process_flat (honest_trivial exec) (simple_flat hf) h
  have key : simple e' = true ∧ (∀ d, a.delayed = some d → simple d = true) ∧ (a.next = false → a.delayed ≠ none → a.flow = true) ∧
      (a.delayed = none → a.next = false ∧ a.flow = false) := by
    unfold CBox.process at h
    cases e with
    | leaf c st =>
      simp only at h
      split at h
      · cases h
      · simp only [Except.ok.injEq, Prod.mk.injEq] at h
        obtain ⟨rfl, rfl, -, -⟩ := h
        exact ⟨rfl, by simp, by simp, by simp⟩
      · simp only [Except.ok.injEq, Prod.mk.injEq] at h
        obtain ⟨rfl, rfl, -, -⟩ := h
        exact ⟨rfl, by intro d hd; cases hd; rfl, by simp, by simp⟩
    | image i =>
      simp only at h
      split at h
      · cases h
      · simp only [Except.ok.injEq, Prod.mk.injEq] at h
        obtain ⟨rfl, rfl, -, -⟩ := h
        exact ⟨hf, by simp, by simp, by simp⟩
      · rename_i i' f1 w1 h1
        have hst : i'.style = i.style := by
          unfold CBox.image at h1
          simp only at h1
          split at h1
          · cases h1
          · split at h1
            · cases h1
            · split at h1
              · cases h1
              · simp only [Except.ok.injEq, Prod.mk.injEq, Option.some.injEq] at h1
                rw [← h1.1]
        simp only [Except.ok.injEq, Prod.mk.injEq] at h
        obtain ⟨rfl, rfl, -, -⟩ := h
        have hs : simple (.image i' : CEl σ) = true := by
          unfold simple at hf ⊢
          simp only at hf ⊢
          rw [hst]; exact hf
        refine ⟨hs, by intro d hd; cases hd; exact hs, ?_, by simp⟩
        intro hn _
        unfold simple at hs
        simp only [ne_eq, decide_not, Bool.not_eq_eq_eq_not, Bool.not_true, decide_eq_false_iff_not, decide_eq_true_eq] at hs hn ⊢
        cases hpl : i'.style.place with
        | normal => exact absurd hpl hn
        | flow => rfl
        | other => exact absurd hpl hs
    | group l t st => cases hf
    | child cols gap els st => cases hf
  exact ⟨hp.frame, key.1, key.2.1, fun h => (hp.next h).2, key.2.2.1, key.2.2.2⟩

/-- with more steps the same -/
theorem addDelayed_more (n k : Nat) (f : CBox σ) (w : COut P B C) (r : CRun (CAct × CBox σ × COut P B C)) (hr : r ≠ .error none)
    (h : f.addDelayed exec n k w = r) : ∀ m, n ≤ m → f.addDelayed exec m k w = r := by
  induction n generalizing k f w with
  | zero => exact absurd h.symm hr
  | succ n ih =>
    intro m hm
    obtain ⟨m, rfl⟩ : ∃ m', m = m' + 1 := ⟨m - 1, by omega⟩
    simp only [CBox.addDelayed] at h ⊢
    cases h1 : f.delayed[k]? with
    | none => rw [h1] at h; exact h
    | some e =>
      rw [h1] at h
      simp only at h ⊢
      cases h2 : f.process exec w e with
      | error e => rw [h2] at h; exact h
      | ok q =>
        obtain ⟨a, e', f1, w1⟩ := q
        rw [h2] at h
        simp only at h ⊢
        by_cases hn : a.next = true
        · rw [if_pos hn] at h ⊢; exact h
        · rw [if_neg hn] at h ⊢
          exact ih _ _ _ h m (by omega)

/-- the loop over the delayed elements ends -/
theorem addDelayed_ends (n k : Nat) (f : CBox σ) (w : COut P B C) (hs : ∀ d ∈ f.delayed, simple d = true) (hn : f.delayed.length ≤ n + k) :
    f.addDelayed exec (n + 1) k w ≠ .error none := by
  induction n generalizing k f w with
  | zero =>
    simp only [CBox.addDelayed]
    rw [List.getElem?_eq_none (by omega)]
    simp
  | succ n ih =>
    rw [CBox.addDelayed]
    cases h1 : f.delayed[k]? with
    | none => simp
    | some e =>
      simp only
      cases h2 : f.process exec w e with
      | error e => simp
      | ok q =>
        obtain ⟨a, e', f1, w1⟩ := q
        simp only
        have hp := process_simple (hs e (List.mem_of_getElem? h1)) h2
        have hlen := (List.getElem?_eq_some_iff.1 h1).1
        by_cases hn' : a.next = true
        · rw [if_pos hn']; simp
        · rw [if_neg hn']
          apply ih
          · intro d hd
            have hd' : d ∈ replaceAt f1.delayed k a.delayed := hd
            rw [hp.frame.delayed] at hd'
            unfold replaceAt at hd'
            cases had : a.delayed with
            | none => rw [had] at hd'; exact hs d (List.mem_of_mem_eraseIdx hd')
            | some d' =>
              rw [had] at hd'
              rcases List.mem_or_eq_of_mem_set hd' with h | h
              · exact hs d h
              · rw [h]; exact hp.kind d' had
          · show (replaceAt f1.delayed k a.delayed).length ≤ _
            rw [hp.frame.delayed]
            unfold replaceAt
            cases had : a.delayed with
            | none =>
              simp only [(hp.gone had).2, Bool.false_eq_true, if_false]
              rw [List.length_eraseIdx_of_lt hlen]
              omega
            | some d' =>
              simp only
              have := hp.stay (by simpa using hn') (by rw [had]; simp)
              rw [if_pos this, List.length_set]
              omega

/-- the next element, if it is no content box -/
theorem elements_step (n : Nat) {f : CBox σ} (anc : List (CBox σ)) (w : COut P B C) {e : CEl σ} (he : f.elements[f.index]? = some e) (hs : simple e = true) :
    contentElements exec (n + 1) (f :: anc) w = (match f.process exec w e with
      | .error e => .error (some e)
      | .ok (a, e', f1, w1) =>
        if a.next then .ok (.next, { f1 with elements := f1.elements.set f1.index e', index := f1.index + 1, delayed := f1.delayed ++ a.delayed.toList } :: anc, w1)
        else contentElements exec n ({ f1 with elements := f1.elements.set f1.index e', index := f1.index + 1, delayed := f1.delayed ++ a.delayed.toList } :: anc) w1) := by
  rw [contentElements, he]
  cases e with
  | leaf c st => rfl
  | image i => rfl
  | group l t st => cases hs
  | child cols gap els st => cases hs

theorem set_simple {f f1 : CBox σ} {e e' : CEl σ} {a : CAns σ} (hs : ∀ e ∈ f.elements, simple e = true) (hp : Step1 f f1 e e' a) :
    ∀ e ∈ f1.elements.set f1.index e', simple e = true := by
  intro d hd
  rw [hp.frame.elements] at hd
  rcases List.mem_or_eq_of_mem_set hd with h | h
  · exact hs d h
  · rw [h]; exact hp.same

theorem elements_more (n : Nat) (f : CBox σ) (w : COut P B C)
    (hs : ∀ e ∈ f.elements, simple e = true) (r : CRun (CAct × List (CBox σ) × COut P B C)) (hr : r ≠ .error none)
    (h : contentElements exec n [f] w = r) : ∀ m, n ≤ m → contentElements exec m [f] w = r := by
  induction n generalizing f w with
  | zero =>
    rw [contentElements] at h
    exact absurd h.symm hr
  | succ n ih =>
    intro m hm
    obtain ⟨m, rfl⟩ : ∃ m', m = m' + 1 := ⟨m - 1, by omega⟩
    cases h1 : f.elements[f.index]? with
    | none => rw [contentElements, h1] at h ⊢; exact h
    | some e =>
      have he := hs e (List.mem_of_getElem? h1)
      rw [elements_step _ _ _ h1 he] at h ⊢
      cases h2 : f.process exec w e with
      | error e => rw [h2] at h; exact h
      | ok q =>
        obtain ⟨a, e', f1, w1⟩ := q
        rw [h2] at h
        simp only at h ⊢
        by_cases hn : a.next = true
        · rw [if_pos hn] at h ⊢; exact h
        · rw [if_neg hn] at h ⊢
          exact ih _ _ (set_simple hs (process_simple he h2)) h m (by omega)

theorem elements_ends (n : Nat) (f : CBox σ) (w : COut P B C) (hs : ∀ e ∈ f.elements, simple e = true) (hn : f.elements.length ≤ n + f.index) :
    contentElements exec (n + 1) [f] w ≠ .error none := by
  induction n generalizing f w with
  | zero =>
    rw [contentElements, List.getElem?_eq_none (by omega)]
    simp
  | succ n ih =>
    cases h1 : f.elements[f.index]? with
    | none => rw [contentElements, h1]; simp
    | some e =>
      have he := hs e (List.mem_of_getElem? h1)
      rw [elements_step _ _ _ h1 he]
      cases h2 : f.process exec w e with
      | error e => simp
      | ok q =>
        obtain ⟨a, e', f1, w1⟩ := q
        have hp := process_simple he h2
        simp only
        by_cases hn' : a.next = true
        · rw [if_pos hn']; simp
        · rw [if_neg hn']
          apply ih _ _ (set_simple hs hp)
          show (f1.elements.set f1.index e').length ≤ n + (f1.index + 1)
          rw [List.length_set, hp.frame.elements, hp.frame.index]
          omega

/-- the height an element needs at most -/
def need (bound : σ → Rat) (colWidth : Rat) : CEl σ → Rat
  | .leaf c st => max 0 (bound c) + max 0 st.top + max 0 st.bottom
  | .image i => max 0 ((colWidth - i.style.left - i.style.right) * i.height / i.width) + max 0 i.style.top + max 0 i.style.bottom + 1
  | _ => 0

/-- what stays the same during an attempt -/
structure Params (bound : σ → Rat) (f g : CBox σ) : Prop where
  cols : g.cols = f.cols
  minY : g.minY = f.minY
  maxY : g.maxY = f.maxY
  colWidth : g.colWidth = f.colWidth
  diff : g.diff = f.diff
  diffLast : g.diffLast = f.diffLast
  sectionIndex : g.sectionIndex = f.sectionIndex
  sectionDelayed : g.sectionDelayed = f.sectionDelayed
  resetting : g.resetting = f.resetting
  needs : g.elements.map (need bound f.colWidth) = f.elements.map (need bound f.colWidth)

theorem Params.refl (bound : σ → Rat) (f : CBox σ) : Params bound f f := ⟨rfl, rfl, rfl, rfl, rfl, rfl, rfl, rfl, rfl, rfl⟩

theorem Params.trans {bound : σ → Rat} {f g h : CBox σ} (a : Params bound f g) (b : Params bound g h) : Params bound f h :=
  ⟨b.1.trans a.1, b.2.trans a.2, b.3.trans a.3, b.4.trans a.4, b.5.trans a.5, b.6.trans a.6, b.7.trans a.7, b.8.trans a.8, b.9.trans a.9,
    by have := b.needs; rw [a.colWidth] at this; exact this.trans a.needs⟩

theorem Moved.params {bound : σ → Rat} {f g : CBox σ} (h : Moved f g) (hn : g.elements.map (need bound f.colWidth) = f.elements.map (need bound f.colWidth)) :
    Params bound f g :=
  ⟨h.cols, h.minY, h.maxY, h.colWidth, h.diff, h.diffLast, h.sectionIndex, h.sectionDelayed, h.resetting, hn⟩

/-- a box of simple elements -/
structure GoodBox (f : CBox σ) : Prop where
  elements : ∀ e ∈ f.elements, simple e = true
  delayed : ∀ e ∈ f.delayed, simple e = true
  section_ : ∀ e ∈ f.sectionDelayed, simple e = true
  column : f.column < f.cols
  first : f.resetting = false → f.diffLast = none ∧ f.diff = none

theorem addDelayed_good (n k : Nat) {f f' : CBox σ} {w w' : COut P B C} {act : CAct} (hs : ∀ d ∈ f.delayed, simple d = true)
    (h : f.addDelayed exec n k w = .ok (act, f', w')) :
    Moved f f' ∧ f'.index = f.index ∧ f'.elements = f.elements ∧ (∀ d ∈ f'.delayed, simple d = true) ∧
      (act = .next ∨ act = .cont ∧ (f'.elements.length ≤ f'.index + 1 → f'.delayed = [])) := by
  induction n generalizing k f w with
  | zero => cases h
  | succ n ih =>
    rw [CBox.addDelayed] at h
    cases h1 : f.delayed[k]? with
    | none =>
      rw [h1] at h
      simp only [Except.ok.injEq, Prod.mk.injEq] at h
      obtain ⟨ha, rfl, rfl⟩ := h
      refine ⟨Moved.refl _, rfl, rfl, hs, ?_⟩
      by_cases hc : f.delayed ≠ [] ∧ f.elements.length ≤ f.index + 1
      · rw [if_pos hc] at ha
        exact Or.inl ha.symm
      · rw [if_neg hc] at ha
        refine Or.inr ⟨ha.symm, fun hl => ?_⟩
        by_contra hd
        exact hc ⟨hd, hl⟩
    | some e =>
      rw [h1] at h
      simp only at h
      cases h2 : f.process exec w e with
      | error e => rw [h2] at h; cases h
      | ok q =>
        obtain ⟨a, e', f1, w1⟩ := q
        rw [h2] at h
        simp only at h
        have hp := process_simple (hs e (List.mem_of_getElem? h1)) h2
        have hs1 : ∀ d ∈ replaceAt f1.delayed k a.delayed, simple d = true := by
          intro d hd'
          rw [hp.frame.delayed] at hd'
          unfold replaceAt at hd'
          cases had : a.delayed with
          | none => rw [had] at hd'; exact hs d (List.mem_of_mem_eraseIdx hd')
          | some d' =>
            rw [had] at hd'
            rcases List.mem_or_eq_of_mem_set hd' with h | h
            · exact hs d h
            · rw [h]; exact hp.kind d' had
        have hm : Moved f { f1 with delayed := replaceAt f1.delayed k a.delayed } := hp.frame.moved f1.elements f1.index _
        by_cases hn : a.next = true
        · rw [if_pos hn] at h
          simp only [Except.ok.injEq, Prod.mk.injEq] at h
          obtain ⟨rfl, rfl, rfl⟩ := h
          exact ⟨hm, hp.frame.index, hp.frame.elements, hs1, Or.inl rfl⟩
        · rw [if_neg hn] at h
          obtain ⟨g1, g2, g3, g4, g5⟩ := ih _ hs1 h
          exact ⟨hm.trans g1, g2.trans hp.frame.index, g3.trans hp.frame.elements, g4, g5⟩

theorem process_need (bound : σ → Rat) (cw : Rat) {f f' : CBox σ} {w w' : COut P B C} {e e' : CEl σ} {a : CAns σ} (hs : simple e = true)
    (h : f.process exec w e = .ok (a, e', f', w')) : need bound cw e' = need bound cw e := by
  unfold CBox.process at h
  cases e with
  | leaf c st =>
    simp only at h
    split at h
    · cases h
    all_goals
      simp only [Except.ok.injEq, Prod.mk.injEq] at h
      obtain ⟨-, rfl, -, -⟩ := h
      rfl
  | image i =>
    simp only at h
    split at h
    · cases h
    · simp only [Except.ok.injEq, Prod.mk.injEq] at h
      obtain ⟨-, rfl, -, -⟩ := h
      rfl
    · rename_i i' f1 w1 h1
      simp only [Except.ok.injEq, Prod.mk.injEq] at h
      obtain ⟨-, rfl, -, -⟩ := h
      unfold CBox.image at h1
      simp only at h1
      split at h1
      · cases h1
      · split at h1
        · cases h1
        · split at h1
          · cases h1
          · simp only [Except.ok.injEq, Prod.mk.injEq, Option.some.injEq] at h1
            rw [← h1.1]
            rfl
  | group l t st => cases hs
  | child cols gap els st => cases hs

theorem elements_good (bound : σ → Rat) (n : Nat) {f : CBox σ} {w w' : COut P B C} {act : CAct} {stk : List (CBox σ)} (hs : ∀ e ∈ f.elements, simple e = true)
    (hd : ∀ d ∈ f.delayed, simple d = true) (h : contentElements exec n [f] w = .ok (act, stk, w')) :
    ∃ f', stk = [f'] ∧ Moved f f' ∧ f'.elements.map (need bound f.colWidth) = f.elements.map (need bound f.colWidth) ∧
      (∀ e ∈ f'.elements, simple e = true) ∧ (∀ d ∈ f'.delayed, simple d = true) ∧ f.index ≤ f'.index ∧
      (act = .next ∨ act = .cont ∧ f'.elements.length ≤ f'.index) ∧ (f.elements.length ≤ f.index → f' = f ∧ act = .cont) := by
  induction n generalizing f w with
  | zero => simp [contentElements] at h
  | succ n ih =>
    cases h1 : f.elements[f.index]? with
    | none =>
      rw [contentElements, h1] at h
      simp only [Except.ok.injEq, Prod.mk.injEq] at h
      obtain ⟨rfl, rfl, rfl⟩ := h
      exact ⟨f, rfl, Moved.refl _, rfl, hs, hd, le_refl _, Or.inr ⟨rfl, List.getElem?_eq_none_iff.1 h1⟩, fun _ => ⟨rfl, rfl⟩⟩
    | some e =>
      have he := hs e (List.mem_of_getElem? h1)
      have hlt := (List.getElem?_eq_some_iff.1 h1).1
      rw [elements_step _ _ _ h1 he] at h
      cases h2 : f.process exec w e with
      | error e => rw [h2] at h; cases h
      | ok q =>
        obtain ⟨a, e', f1, w1⟩ := q
        rw [h2] at h
        simp only at h
        have hp := process_simple he h2
        have hs1 := set_simple hs hp
        have hd1 : ∀ d ∈ f1.delayed ++ a.delayed.toList, simple d = true := by
          intro d hd'
          rw [hp.frame.delayed, List.mem_append, Option.mem_toList] at hd'
          rcases hd' with hd' | hd'
          · exact hd d hd'
          · exact hp.kind d hd'
        have hn1 : (f1.elements.set f1.index e').map (need bound f.colWidth) = f.elements.map (need bound f.colWidth) := by
          rw [hp.frame.elements, hp.frame.index, List.map_set, process_need bound _ he h2]
          apply List.ext_getElem?
          intro j
          rw [List.getElem?_set]
          split
          · rename_i hij
            subst hij
            rw [if_pos (by simpa using hlt), List.getElem?_map, h1]
            rfl
          · rfl
        generalize hf2 : ({ f1 with elements := f1.elements.set f1.index e', index := f1.index + 1, delayed := f1.delayed ++ a.delayed.toList } : CBox σ) = f2 at h
        have hm : Moved f f2 := by rw [← hf2]; exact hp.frame.moved _ _ _
        have hidx : f2.index = f.index + 1 := by rw [← hf2, ← hp.frame.index]
        have hs2 : ∀ e ∈ f2.elements, simple e = true := by rw [← hf2]; exact hs1
        have hd2 : ∀ e ∈ f2.delayed, simple e = true := by rw [← hf2]; exact hd1
        have hn2 : f2.elements.map (need bound f.colWidth) = f.elements.map (need bound f.colWidth) := by rw [← hf2]; exact hn1
        by_cases hn : a.next = true
        · rw [if_pos hn] at h
          simp only [Except.ok.injEq, Prod.mk.injEq] at h
          obtain ⟨rfl, rfl, rfl⟩ := h
          exact ⟨f2, rfl, hm, hn2, hs2, hd2, by omega, Or.inl rfl, fun h => by omega⟩
        · rw [if_neg hn] at h
          obtain ⟨f', g1, g2, g3, g4, g5, g6, g7, -⟩ := ih hs2 hd2 h
          refine ⟨f', g1, hm.trans g2, ?_, g4, g5, by omega, g7, fun h => by omega⟩
          rw [hm.colWidth] at g3
          exact g3.trans hn2

/-- a result that is no lack of steps -/
def Stopped (cols : Nat) (r : CRun (CAct × List (CBox σ) × COut P B C)) : Prop :=
  match r with
  | .error none => False
  | .error _ => True
  | .ok (_, stk, _) => ∃ f : CBox σ, stk = [f] ∧ f.cols = cols ∧ (∀ e ∈ f.elements, simple e = true) ∧ ∀ e ∈ f.sectionDelayed, simple e = true

/-- the run of a box ends: with enough steps there is a result, always the same -/
def Ends (exec : σ → Rat → Rat → Rat → Rat → Except PyErr (CellOut σ P B C)) (f : CBox σ) (w : COut P B C) : Prop :=
  ∃ n r, Stopped f.cols r ∧ ∀ m, n ≤ m → contentRun exec m [f] w = r

/-- columns left, and whether there are elements left -/
def left (f : CBox σ) : Nat := 2 * (f.cols - f.column) + (if f.index < f.elements.length then 1 else 0)

/-- a box at the end of an attempt -/
structure EndBox (bound : σ → Rat) (f h : CBox σ) : Prop where
  params : Params bound f h
  elements : ∀ e ∈ h.elements, simple e = true
  section_ : ∀ e ∈ h.sectionDelayed, simple e = true

/-- what one passage of the loop of `run` may come to -/
def Passed (exec : σ → Rat → Rat → Rat → Rat → Except PyErr (CellOut σ P B C)) (bound : σ → Rat) (f : CBox σ) (w : COut P B C) : Prop :=
  Ends exec f w ∨
    (∃ g w', Params bound f g ∧ GoodBox g ∧ left g < left f ∧ (Ends exec g w' → Ends exec f w)) ∨
    (∃ h w', EndBox bound f h ∧ (h.reset w').1 = true ∧ (Ends exec (h.reset w').2.1 (h.reset w').2.2 → Ends exec f w))

/-- the answer `next` -/
theorem next_root {f : CBox σ} (w : COut P B C) :
    answerAct .next [f] w =
      if f.column + 1 = f.cols then
        if f.resetting then (.retry, [(CBox.reset { f with forward := true } w).2.1], (CBox.reset { f with forward := true } w).2.2)
        else (.interrupt, [{ f with sectionIndex := f.index, sectionDelayed := f.delayed, childrenMemory := [] }], w)
      else (.retry, [{ f with column := f.column + 1, starting := true, y := f.minY }], w) := by
  simp only [answerAct, nextSection]
  by_cases h1 : f.column + 1 = f.cols
  · rw [if_pos h1, if_pos h1]
    by_cases h2 : f.resetting = true
    · rw [if_pos h2, if_pos h2]
      simp only [breakAct]
      rw [if_pos (Or.inr h2)]
      have : (CBox.reset { f with forward := true } w).1 = true := by
        unfold CBox.reset
        simp
      rw [this]
      rfl
    · rw [if_neg h2, if_neg h2]
      rfl
  · rw [if_neg h1, if_neg h1]
    simp

theorem Ends.later {f : CBox σ} {w : COut P B C} (N : Nat) {g : CBox σ} {w' : COut P B C} (hc : g.cols = f.cols)
    (h : ∀ m, N ≤ m → contentRun exec (m + 1) [f] w = contentRun exec m [g] w') (hg : Ends exec g w') : Ends exec f w := by
  obtain ⟨n, r, h1, h2⟩ := hg
  rw [hc] at h1
  refine ⟨max n N + 1, r, h1, ?_⟩
  intro m hm
  obtain ⟨m, rfl⟩ : ∃ m', m = m' + 1 := ⟨m - 1, by omega⟩
  rw [h m (by omega), h2 m (by omega)]

theorem Ends.now {f : CBox σ} {w : COut P B C} (N : Nat) {r : CRun (CAct × List (CBox σ) × COut P B C)} (hr : Stopped f.cols r)
    (h : ∀ m, N ≤ m → contentRun exec (m + 1) [f] w = r) : Ends exec f w := by
  refine ⟨N + 1, r, hr, ?_⟩
  intro m hm
  obtain ⟨m, rfl⟩ : ∃ m', m = m' + 1 := ⟨m - 1, by omega⟩
  exact h m (by omega)

theorem reset_cols (f : CBox σ) (w : COut P B C) : (f.reset w).2.1.cols = f.cols := by
  unfold CBox.reset
  split
  · rfl
  · simp only
    split <;> rfl

/-- the answer `next`, after either loop -/
theorem next_passed (bound : σ → Rat) (N : Nat) {f f1 : CBox σ} {w w1 : COut P B C} (hp : Params bound f f1) (hg : GoodBox f1)
    (hc : f1.column = f.column) (hi : f.elements.length ≤ f.index → f1.elements.length ≤ f1.index)
    (h1 : ∀ m, N ≤ m → ∀ stk w', answerAct .next [f1] w1 = (.retry, stk, w') → contentRun exec (m + 1) [f] w = contentRun exec m stk w')
    (h2 : ∀ m, N ≤ m → ∀ stk w', answerAct .next [f1] w1 = (.interrupt, stk, w') → contentRun exec (m + 1) [f] w = .ok (.interrupt, stk, w')) :
    Passed exec bound f w := by
  have hcol := hg.column
  rw [next_root] at h1 h2
  by_cases h3 : f1.column + 1 = f1.cols
  · rw [if_pos h3] at h1 h2
    by_cases h4 : f1.resetting = true
    · rw [if_pos h4] at h1
      right; right
      refine ⟨{ f1 with forward := true }, w1, ⟨⟨hp.1, hp.2, hp.3, hp.4, hp.5, hp.6, hp.7, hp.8, hp.9, hp.10⟩, hg.elements, hg.section_⟩, ?_, ?_⟩
      · unfold CBox.reset
        simp
      · refine Ends.later N ?_ (fun m hm => h1 m hm _ _ rfl)
        rw [reset_cols]
        exact hp.cols
    · rw [if_neg h4] at h2
      left
      refine Ends.now N (r := .ok (.interrupt, [{ f1 with sectionIndex := f1.index, sectionDelayed := f1.delayed, childrenMemory := [] }], w1)) ?_
        (fun m hm => h2 m hm _ _ rfl)
      exact ⟨_, rfl, hp.cols, hg.elements, hg.delayed⟩
  · rw [if_neg h3] at h1
    right; left
    refine ⟨{ f1 with column := f1.column + 1, starting := true, y := f1.minY }, w1, ⟨hp.1, hp.2, hp.3, hp.4, hp.5, hp.6, hp.7, hp.8, hp.9, hp.10⟩,
      ⟨hg.elements, hg.delayed, hg.section_, ?_, hg.first⟩, ?_, Ends.later N hp.cols (fun m hm => h1 m hm _ _ rfl)⟩
    · show f1.column + 1 < f1.cols
      omega
    · have := hp.cols
      unfold left
      simp only
      split <;> split <;> omega

theorem run_passed (bound : σ → Rat) {f : CBox σ} (hg : GoodBox f) (w : COut P B C) : Passed exec bound f w := by
  have hd1 := addDelayed_ends (exec := exec) f.delayed.length 0 f w hg.delayed (by omega)
  have hd2 := addDelayed_more (exec := exec) (f.delayed.length + 1) 0 f w _ hd1 rfl
  generalize hr : f.addDelayed exec (f.delayed.length + 1) 0 w = r at hd1 hd2
  cases r with
  | error e =>
    cases e with
    | none => exact absurd rfl hd1
    | some e =>
      left
      refine Ends.now (f.delayed.length + 1) (r := .error (some e)) trivial ?_
      intro m hm
      rw [contentRun, hd2 m hm]
  | ok q =>
    obtain ⟨a, f1, w1⟩ := q
    obtain ⟨g1, g2, g3, g4, g5⟩ := addDelayed_good _ _ hg.delayed hr
    have hp1 : Params bound f f1 := g1.params (by rw [g3])
    have hg1 : GoodBox f1 := ⟨by rw [g3]; exact hg.elements, g4, by rw [g1.sectionDelayed]; exact hg.section_, by rw [g1.column, g1.cols]; exact hg.column,
      by rw [g1.resetting, g1.diffLast, g1.diff]; exact hg.first⟩
    rcases g5 with rfl | ⟨rfl, g5⟩
    · apply next_passed bound (w1 := w1) (f.delayed.length + 1) hp1 hg1 g1.column (by rw [g2, g3]; exact id)
      · intro m hm stk w' h
        rw [contentRun, hd2 m hm]
        simp only [h]
      · intro m hm stk w' h
        rw [contentRun, hd2 m hm]
        simp only [h]
    · have he1 := elements_ends (exec := exec) f1.elements.length f1 w1 hg1.elements (by omega)
      have he2 := elements_more (exec := exec) (f1.elements.length + 1) f1 w1 hg1.elements _ he1 rfl
      generalize hr2 : contentElements exec (f1.elements.length + 1) [f1] w1 = r2 at he1 he2
      cases r2 with
      | error e =>
        cases e with
        | none => exact absurd rfl he1
        | some e => exact Or.inl (Ends.now (f.delayed.length + 1 + (f1.elements.length + 1)) (r := .error (some e)) trivial (fun m hm => by
          rw [contentRun, hd2 m (by omega)]; simp only; rw [show answerAct .cont [f1] w1 = (.cont, [f1], w1) from rfl]; simp only; rw [he2 m (by omega)]))
      | ok q =>
        obtain ⟨a, stk, w2⟩ := q
        obtain ⟨f2, rfl, k1, k2, k3, k4, k5, k6, k7⟩ := elements_good bound _ hg1.elements hg1.delayed hr2
        have hp2 : Params bound f f2 := hp1.trans (k1.params k2)
        have hg2 : GoodBox f2 := ⟨k3, k4, by rw [k1.sectionDelayed]; exact hg1.section_, by rw [k1.column, k1.cols]; exact hg1.column,
          by rw [k1.resetting, k1.diffLast, k1.diff]; exact hg1.first⟩
        have hlen : f2.elements.length = f1.elements.length := by
          have := congrArg List.length k2
          simpa using this
        rcases k6 with rfl | ⟨rfl, k6⟩
        · apply next_passed bound (w1 := w2) (f.delayed.length + 1 + (f1.elements.length + 1)) hp2 hg2 (k1.column.trans g1.column)
            (fun h => by rw [hlen, g3]; omega)
          · intro m hm stk w' h
            rw [contentRun, hd2 m (by omega)]; simp only; rw [show answerAct .cont [f1] w1 = (.cont, [f1], w1) from rfl]; simp only; rw [he2 m (by omega)]
            simp only [h]
          · intro m hm stk w' h
            rw [contentRun, hd2 m (by omega)]; simp only; rw [show answerAct .cont [f1] w1 = (.cont, [f1], w1) from rfl]; simp only; rw [he2 m (by omega)]
            simp only [h]
        · by_cases h1 : f2.delayed ≠ []
          · right; left
            refine ⟨f2, w2, hp2, hg2, ?_, Ends.later (f.delayed.length + 1 + (f1.elements.length + 1)) hp2.cols (fun m hm => by rw [contentRun, hd2 m (by omega)]; simp only; rw [show answerAct .cont [f1] w1 = (.cont, [f1], w1) from rfl]; simp only; rw [he2 m (by omega)]; simp only; rw [show answerAct .cont [f2] w2 = (.cont, [f2], w2) from rfl]; simp only; rw [if_pos h1])⟩
            have hlt : f.index < f.elements.length := by
              by_contra hge
              have hge' : f1.elements.length ≤ f1.index := by rw [g2, g3]; omega
              rw [(k7 hge').1] at h1
              exact h1 (g5 (by omega))
            have q1 := hp2.cols
            have q2 : f2.column = f.column := k1.column.trans g1.column
            unfold left
            rw [if_pos hlt, if_neg (by omega), q1, q2]
            omega
          · by_cases h2 : ¬ f2.resetting = true ∧ f2.cols > 1
            · right; right
              have hfirst := hg2.first (by simpa using h2.1)
              refine ⟨{ f2 with willReset := true }, w2, ⟨⟨hp2.1, hp2.2, hp2.3, hp2.4, hp2.5, hp2.6, hp2.7, hp2.8, hp2.9, hp2.10⟩, hg2.elements, hg2.section_⟩, ?_,
                Ends.later (f.delayed.length + 1 + (f1.elements.length + 1)) ?_ ?_⟩
              · unfold CBox.reset CBox.fine
                simp [hfirst.1]
              · rw [reset_cols]; exact hp2.cols
              · intro m hm
                rw [contentRun, hd2 m (by omega)]; simp only; rw [show answerAct .cont [f1] w1 = (.cont, [f1], w1) from rfl]; simp only; rw [he2 m (by omega)]; simp only; rw [show answerAct .cont [f2] w2 = (.cont, [f2], w2) from rfl]; simp only; rw [if_neg h1, if_pos h2]
                rfl
            · by_cases h3 : f2.resetting = true
              · by_cases h4 : (CBox.reset { f2 with forward := false } w2).1 = true
                · right; right
                  refine ⟨{ f2 with forward := false }, w2, ⟨⟨hp2.1, hp2.2, hp2.3, hp2.4, hp2.5, hp2.6, hp2.7, hp2.8, hp2.9, hp2.10⟩, hg2.elements, hg2.section_⟩, h4,
                    Ends.later (f.delayed.length + 1 + (f1.elements.length + 1)) ?_ ?_⟩
                  · rw [reset_cols]; exact hp2.cols
                  · intro m hm
                    rw [contentRun, hd2 m (by omega)]; simp only; rw [show answerAct .cont [f1] w1 = (.cont, [f1], w1) from rfl]; simp only; rw [he2 m (by omega)]; simp only; rw [show answerAct .cont [f2] w2 = (.cont, [f2], w2) from rfl]; simp only; rw [if_neg h1, if_neg h2, if_pos h3, if_pos h4]
                · left
                  refine Ends.now (f.delayed.length + 1 + (f1.elements.length + 1)) ?_ (fun m hm => by rw [contentRun, hd2 m (by omega)]; simp only; rw [show answerAct .cont [f1] w1 = (.cont, [f1], w1) from rfl]; simp only; rw [he2 m (by omega)]; simp only; rw [show answerAct .cont [f2] w2 = (.cont, [f2], w2) from rfl]; simp only; rw [if_neg h1, if_neg h2, if_pos h3, if_neg h4])
                  have he : (CBox.reset { f2 with forward := false } w2).2.1 = { f2 with forward := false } := by
                    unfold CBox.reset at h4 ⊢
                    split
                    · rfl
                    · rename_i h5
                      rw [if_neg h5] at h4
                      simp at h4
                  exact ⟨_, rfl, by rw [he]; exact hp2.cols, by rw [he]; exact hg2.elements, by rw [he]; exact hg2.section_⟩
              · left
                refine Ends.now (f.delayed.length + 1 + (f1.elements.length + 1)) (r := .ok (.cont, [f2], w2)) ?_ (fun m hm => by rw [contentRun, hd2 m (by omega)]; simp only; rw [show answerAct .cont [f1] w1 = (.cont, [f1], w1) from rfl]; simp only; rw [he2 m (by omega)]; simp only; rw [show answerAct .cont [f2] w2 = (.cont, [f2], w2) from rfl]; simp only; rw [if_neg h1, if_neg h2, if_neg h3])
                exact ⟨_, rfl, hp2.cols, hg2.elements, hg2.section_⟩

/-- one attempt: it ends, or there is another one -/
theorem attempt (bound : σ → Rat) {f : CBox σ} (hg : GoodBox f) (w : COut P B C) : Ends exec f w ∨
    (∃ h w', EndBox bound f h ∧ (h.reset w').1 = true ∧ (Ends exec (h.reset w').2.1 (h.reset w').2.2 → Ends exec f w)) := by
  generalize hn : left f = n
  induction n using Nat.strong_induction_on generalizing f w with
  | _ n ih =>
    rcases run_passed (exec := exec) bound hg w with h | ⟨g, w', h1, h2, h3, h4⟩ | h
    · exact Or.inl h
    · rcases ih (left g) (by omega) h2 w' rfl with h | ⟨h, w'', h5, h6, h7⟩
      · exact Or.inl (h4 h)
      · exact Or.inr ⟨h, w'', ⟨h1.trans h5.params, h5.elements, h5.section_⟩, h6, fun h => h4 (h7 h)⟩
    · exact Or.inr h

/-! ### Room for everything -/

/-- the room left below the last element -/
def roomLeft (f : CBox σ) : Rat := f.y - f.maxY - (if f.starting then 0 else f.lastBottom)

/-- with enough room an element is placed -/
theorem process_roomy {bound : σ → Rat} (hb : Bounded exec bound) {f f' : CBox σ} {w w' : COut P B C} {e e' : CEl σ} {a : CAns σ} (hs : simple e = true)
    (hr : need bound f.colWidth e ≤ roomLeft f) (h : f.process exec w e = .ok (a, e', f', w')) :
    a.delayed = none ∧ a.next = false ∧ a.flow = false ∧ roomLeft f - need bound f.colWidth e ≤ roomLeft f' := by
  have hdesc : ∀ st : CStyle, (f.descend st true).y - f.maxY ≥ roomLeft f - max 0 st.top := by
    intro st
    have := le_max_left 0 st.top
    have := le_max_right 0 st.top
    unfold roomLeft CBox.descend
    by_cases hst : f.starting = true
    · rw [if_pos hst, if_pos hst]; linarith
    · rw [if_neg hst, if_neg hst]
      simp only [if_true]
      linarith
  have hroom : ∀ st : CStyle, (f.descend st true).room ≥ (f.descend st true).y - f.maxY := by
    intro st
    have h1 : (f.descend st true).maxY = f.maxY := (descend_frame f st true).maxY
    unfold CBox.room
    rw [h1]
    exact le_max_right _ _
  unfold CBox.process at h
  cases e with
  | leaf c st =>
    simp only [need] at hr
    have h0 := hdesc st
    have h1 := hroom st
    have h2 := le_max_right 0 (bound c)
    have h2' := le_max_left 0 (bound c)
    have h3 := le_max_left 0 st.bottom
    have h4 := le_max_right 0 st.bottom
    have h5 := le_max_left 0 st.top
    unfold CBox.leaf at h
    simp only at h
    cases hx : exec c ((f.descend st true).elX st) (f.descend st true).y ((f.descend st true).elWidth st) (f.descend st true).room with
    | error e => rw [hx] at h; cases h
    | ok o =>
      obtain ⟨hfin, hle⟩ := hb _ _ _ _ _ _ (by linarith) hx
      rw [hx] at h
      simp only [hfin, if_true] at h
      simp only [Except.ok.injEq, Prod.mk.injEq] at h
      obtain ⟨rfl, -, rfl, -⟩ := h
      refine ⟨rfl, rfl, rfl, ?_⟩
      have hm : (f.descend st true).maxY = f.maxY := (descend_frame f st true).maxY
      unfold CBox.took need
      by_cases hh : o.height > 0
      · rw [if_pos hh]
        unfold roomLeft at h0 ⊢
        simp only [Bool.false_eq_true, if_false] at h0 ⊢
        rw [hm]
        linarith
      · rw [if_neg hh]
        have : roomLeft { f.descend st true with y := f.y } = roomLeft f := by
          unfold CBox.descend roomLeft
          by_cases hst : f.starting = true
          · rw [if_pos hst]
          · rw [if_neg hst]
        rw [this]
        simp only
        linarith
  | image i =>
    simp only [need] at hr
    have h0 := hdesc i.style
    have h1 := hroom i.style
    have h3 := le_max_left 0 i.style.bottom
    have h4 := le_max_right 0 i.style.bottom
    have h5 := le_max_left 0 i.style.top
    have hw : (f.descend i.style true).elWidth i.style = f.colWidth - i.style.left - i.style.right := by
      unfold CBox.elWidth
      rw [(descend_frame f i.style true).colWidth]
    have h2 := le_max_right 0 ((f.colWidth - i.style.left - i.style.right) * i.height / i.width)
    have h2' := le_max_left 0 ((f.colWidth - i.style.left - i.style.right) * i.height / i.width)
    unfold CBox.image at h
    simp only at h
    by_cases hz : i.width = 0
    · rw [if_pos hz] at h; cases h
    · rw [if_neg hz] at h
      unfold CImg.fit at h
      rw [hw] at h
      simp only at h
      rw [if_pos (by linarith)] at h
      simp only [Except.ok.injEq, Prod.mk.injEq] at h
      obtain ⟨rfl, -, rfl, -⟩ := h
      refine ⟨rfl, rfl, rfl, ?_⟩
      have hm : (f.descend i.style true).maxY = f.maxY := (descend_frame f i.style true).maxY
      unfold need
      unfold roomLeft at h0 ⊢
      simp only [Bool.false_eq_true, if_false] at h0 ⊢
      rw [hm]
      linarith
  | group l t st => cases hs
  | child cols gap els st => cases hs

theorem need_nonneg (bound : σ → Rat) (cw : Rat) (e : CEl σ) : 0 ≤ need bound cw e := by
  cases e with
  | leaf c st =>
    have h2 := le_max_left 0 (bound c)
    have h3 := le_max_left 0 st.bottom
    have h5 := le_max_left 0 st.top
    simp only [need]; linarith
  | image i =>
    have h2 := le_max_left 0 ((cw - i.style.left - i.style.right) * i.height / i.width)
    have h3 := le_max_left 0 i.style.bottom
    have h5 := le_max_left 0 i.style.top
    simp only [need]; linarith
  | group l t st => exact le_refl _
  | child cols gap els st => exact le_refl _

/-- the height needed for a list of elements -/
def needs (bound : σ → Rat) (cw : Rat) (l : List (CEl σ)) : Rat := (l.map (need bound cw)).sum

theorem needs_nonneg (bound : σ → Rat) (cw : Rat) (l : List (CEl σ)) : 0 ≤ needs bound cw l := by
  induction l with
  | nil => exact le_refl _
  | cons e l ih =>
    have := need_nonneg bound cw e
    simp only [needs, List.map_cons, List.sum_cons] at ih ⊢
    linarith

theorem addDelayed_roomy {bound : σ → Rat} (hb : Bounded exec bound) (n : Nat) (extra : Rat) {f f' : CBox σ} {w w' : COut P B C} {act : CAct}
    (hs : ∀ d ∈ f.delayed, simple d = true) (hr : needs bound f.colWidth f.delayed + extra ≤ roomLeft f) (he : 0 ≤ extra)
    (h : f.addDelayed exec n 0 w = .ok (act, f', w')) : act = .cont ∧ f'.delayed = [] ∧ extra ≤ roomLeft f' := by
  induction n generalizing f w with
  | zero => cases h
  | succ n ih =>
    rw [CBox.addDelayed] at h
    cases hd : f.delayed with
    | nil =>
      rw [hd] at h hr
      simp only [List.getElem?_nil, ne_eq, not_true, false_and, if_false, Except.ok.injEq, Prod.mk.injEq] at h
      obtain ⟨rfl, rfl, rfl⟩ := h
      refine ⟨rfl, hd, ?_⟩
      simp only [needs, List.map_nil, List.sum_nil] at hr
      linarith
    | cons e l =>
      rw [hd] at h
      simp only [List.getElem?_cons_zero] at h
      cases h2 : f.process exec w e with
      | error e => rw [h2] at h; cases h
      | ok q =>
        obtain ⟨a, e', f1, w1⟩ := q
        rw [h2] at h
        simp only at h
        have hse := hs e (by rw [hd]; simp)
        have hl := needs_nonneg bound f.colWidth l
        have hsum : needs bound f.colWidth f.delayed = need bound f.colWidth e + needs bound f.colWidth l := by
          rw [hd]; simp [needs]
        have hp := process_simple hse h2
        obtain ⟨k1, k2, k3, k4⟩ := process_roomy hb hse (by linarith) h2
        rw [k2, k3, k1, hp.frame.delayed, hd] at h
        simp only [Bool.false_eq_true, if_false, replaceAt, List.eraseIdx_cons_zero] at h
        refine ih (f := { f1 with delayed := l }) ?_ ?_ h
        · intro d hd'
          exact hs d (by rw [hd]; exact List.mem_cons_of_mem _ hd')
        · show needs bound f1.colWidth l + extra ≤ roomLeft f1
          rw [hp.frame.colWidth]
          linarith

theorem elements_roomy {bound : σ → Rat} (hb : Bounded exec bound) (n : Nat) {f : CBox σ} {w w' : COut P B C} {act : CAct} {stk : List (CBox σ)}
    (hs : ∀ e ∈ f.elements, simple e = true) (hd : f.delayed = []) (hr : needs bound f.colWidth (f.elements.drop f.index) ≤ roomLeft f)
    (h : contentElements exec n [f] w = .ok (act, stk, w')) : act = .cont ∧ ∃ f', stk = [f'] ∧ f'.delayed = [] := by
  induction n generalizing f w with
  | zero => simp [contentElements] at h
  | succ n ih =>
    cases h1 : f.elements[f.index]? with
    | none =>
      rw [contentElements, h1] at h
      simp only [Except.ok.injEq, Prod.mk.injEq] at h
      obtain ⟨rfl, rfl, rfl⟩ := h
      exact ⟨rfl, f, rfl, hd⟩
    | some e =>
      have he := hs e (List.mem_of_getElem? h1)
      rw [elements_step _ _ _ h1 he] at h
      cases h2 : f.process exec w e with
      | error e => rw [h2] at h; cases h
      | ok q =>
        obtain ⟨a, e', f1, w1⟩ := q
        rw [h2] at h
        simp only at h
        have hp := process_simple he h2
        obtain ⟨hlt, hget⟩ := List.getElem?_eq_some_iff.1 h1
        have hsum : needs bound f.colWidth (f.elements.drop f.index) = need bound f.colWidth e + needs bound f.colWidth (f.elements.drop (f.index + 1)) := by
          rw [List.drop_eq_getElem_cons hlt, hget]
          simp [needs]
        have hl := needs_nonneg bound f.colWidth (f.elements.drop (f.index + 1))
        obtain ⟨k1, k2, k3, k4⟩ := process_roomy hb he (by linarith) h2
        rw [k2] at h
        simp only [Bool.false_eq_true, if_false] at h
        refine ih (f := { f1 with elements := f1.elements.set f1.index e', index := f1.index + 1, delayed := f1.delayed ++ a.delayed.toList })
          (set_simple hs hp) ?_ ?_ h
        · show f1.delayed ++ a.delayed.toList = []
          rw [hp.frame.delayed, hd, k1]
          rfl
        · show needs bound f1.colWidth ((f1.elements.set f1.index e').drop (f1.index + 1)) ≤ roomLeft f1
          rw [hp.frame.colWidth, hp.frame.elements, hp.frame.index, List.drop_set_of_lt (by omega)]
          linarith

/-- the height needed for all that is to be placed -/
def total (bound : σ → Rat) (f : CBox σ) : Rat :=
  needs bound f.colWidth f.sectionDelayed + needs bound f.colWidth (f.elements.drop f.sectionIndex)

theorem Params.total {bound : σ → Rat} {f g : CBox σ} (h : Params bound f g) : Verif.total bound g = Verif.total bound f := by
  unfold Verif.total Verif.needs
  rw [h.colWidth, h.sectionDelayed, h.sectionIndex, List.map_drop, List.map_drop, h.needs]

/-- a box at the start of an attempt -/
structure FreshBox (f : CBox σ) : Prop where
  y : f.y = f.minY
  starting : f.starting = true
  index : f.index = f.sectionIndex
  delayed : f.delayed = f.sectionDelayed

/-- an attempt with enough height is the last one, if the last step was fine -/
theorem roomy_ends {bound : σ → Rat} (hb : Bounded exec bound) {f : CBox σ} (hg : GoodBox f) (hf : FreshBox f) (w : COut P B C)
    (hres : f.resetting = true) (hfine : f.fine = true) (hr : total bound f ≤ f.minY - f.maxY) : Ends exec f w := by
  have hroom : roomLeft f = f.minY - f.maxY := by
    unfold roomLeft
    rw [hf.starting, hf.y]
    simp
  have hd1 := addDelayed_ends (exec := exec) f.delayed.length 0 f w hg.delayed (by omega)
  have hd2 := addDelayed_more (exec := exec) (f.delayed.length + 1) 0 f w _ hd1 rfl
  generalize hr' : f.addDelayed exec (f.delayed.length + 1) 0 w = r at hd1 hd2
  cases r with
  | error e =>
    cases e with
    | none => exact absurd rfl hd1
    | some e =>
      refine Ends.now (f.delayed.length + 1) (r := .error (some e)) trivial ?_
      intro m hm
      rw [contentRun, hd2 m hm]
  | ok q =>
    obtain ⟨a, f1, w1⟩ := q
    obtain ⟨g1, g2, g3, g4, g5⟩ := addDelayed_good _ _ hg.delayed hr'
    obtain ⟨rfl, j1, j2⟩ := addDelayed_roomy hb _ (needs bound f.colWidth (f.elements.drop f.sectionIndex)) hg.delayed
      (by rw [hroom, hf.delayed]; exact hr) (needs_nonneg _ _ _) hr'
    have he1 := elements_ends (exec := exec) f1.elements.length f1 w1 (by rw [g3]; exact hg.elements) (by omega)
    have he2 := elements_more (exec := exec) (f1.elements.length + 1) f1 w1 (by rw [g3]; exact hg.elements) _ he1 rfl
    generalize hr2 : contentElements exec (f1.elements.length + 1) [f1] w1 = r2 at he1 he2
    cases r2 with
    | error e =>
      cases e with
      | none => exact absurd rfl he1
      | some e =>
        refine Ends.now (f.delayed.length + 1 + (f1.elements.length + 1)) (r := .error (some e)) trivial ?_
        intro m hm
        rw [contentRun, hd2 m (by omega)]
        simp only
        rw [show answerAct .cont [f1] w1 = (.cont, [f1], w1) from rfl]
        simp only
        rw [he2 m (by omega)]
    | ok q =>
      obtain ⟨a, stk, w2⟩ := q
      obtain ⟨rfl, f2, rfl, j3⟩ := elements_roomy hb _ (by rw [g3]; exact hg.elements) j1 (by rw [g1.colWidth, g3, g2, hf.index]; exact j2) hr2
      obtain ⟨f3, h3, k1, k2, k3, k4, k5, k6, k7⟩ := elements_good bound _ (by rw [g3]; exact hg.elements) g4 hr2
      cases h3
      have hres2 : f2.resetting = true := k1.resetting.trans (g1.resetting.trans hres)
      have hfine2 : f2.fine = true := by
        unfold CBox.fine at hfine ⊢
        rw [k1.diffLast, g1.diffLast, k1.diff, g1.diff]
        exact hfine
      have hreset : CBox.reset { f2 with forward := false } w2 = (false, { f2 with forward := false }, w2) := by
        unfold CBox.reset
        rw [if_pos ⟨hfine2, by simp⟩]
      refine Ends.now (f.delayed.length + 1 + (f1.elements.length + 1)) (r := .ok (.cont, [{ f2 with forward := false }], w2)) ?_ ?_
      · exact ⟨_, rfl, k1.cols.trans g1.cols, k3, by show ∀ e ∈ f2.sectionDelayed, _; rw [k1.sectionDelayed, g1.sectionDelayed]; exact hg.section_⟩
      · intro m hm
        rw [contentRun, hd2 m (by omega)]
        simp only
        rw [show answerAct .cont [f1] w1 = (.cont, [f1], w1) from rfl]
        simp only
        rw [he2 m (by omega)]
        simp only
        rw [show answerAct .cont [f2] w2 = (.cont, [f2], w2) from rfl]
        simp only
        rw [if_neg (by rw [j3]; simp), if_neg (by rw [hres2]; simp), if_pos hres2, hreset]
        simp

/-! ### The sequence of attempts -/

/-- the box after a `reset` -/
structure ResetBox (bound : σ → Rat) (h g : CBox σ) : Prop where
  good : GoodBox g
  fresh : FreshBox g
  resetting : g.resetting = true
  total : total bound g = total bound h
  minY : g.minY = h.minY

theorem reset_box (bound : σ → Rat) {h : CBox σ} {w : COut P B C} (he : ∀ e ∈ h.elements, simple e = true) (hs : ∀ e ∈ h.sectionDelayed, simple e = true)
    (hc : 0 < h.cols) (hr : (h.reset w).1 = true) : ResetBox bound h (h.reset w).2.1 := by
  unfold CBox.reset at hr ⊢
  split
  · rename_i h1
    rw [if_pos h1] at hr
    cases hr
  · simp only
    split
    · exact ⟨⟨he, hs, hs, hc, by intro h; cases h⟩, ⟨rfl, rfl, rfl, rfl⟩, rfl, rfl, rfl⟩
    · exact ⟨⟨he, hs, hs, hc, by intro h; cases h⟩, ⟨rfl, rfl, rfl, rfl⟩, rfl, rfl, rfl⟩

theorem EndBox.next {bound : σ → Rat} {f h : CBox σ} {w : COut P B C} (hg : GoodBox f) (he : EndBox bound f h) (hr : (h.reset w).1 = true) :
    ResetBox bound f (h.reset w).2.1 := by
  have hc := hg.column
  obtain ⟨a, b, c, d, e⟩ := reset_box bound he.elements he.section_ (by rw [he.params.cols]; omega) hr
  exact ⟨a, b, c, d.trans he.params.total, e.trans he.params.minY⟩

/-- small steps down until there is room -/
theorem small_steps {bound : σ → Rat} (hb : Bounded exec bound) (d : Rat) (hd : 0 < d) (hd1 : d < 1) (k : Nat) {f : CBox σ} (hg : GoodBox f) (hf : FreshBox f)
    (w : COut P B C) (hres : f.resetting = true) (h1 : f.diff = some d) (h2 : f.diffLast = some (2 * d))
    (hk : total bound f ≤ f.minY - f.maxY + k * d) : Ends exec f w := by
  have hfine : f.fine = true := by
    unfold CBox.fine
    rw [h1, h2]
    simp only [Option.getD_some, ne_eq, decide_not, Bool.and_eq_true, Bool.not_eq_eq_eq_not, Bool.not_true, decide_eq_false_iff_not, decide_eq_true_eq]
    exact ⟨by linarith, by linarith⟩
  induction k generalizing f w with
  | zero =>
    refine roomy_ends hb hg hf w hres hfine ?_
    simpa using hk
  | succ k ih =>
    rcases attempt (exec := exec) bound hg w with h | ⟨h, w', h3, h4, h5⟩
    · exact h
    · apply h5
      have hb' := EndBox.next hg h3 h4
      have hfh : h.fine = true := by
        unfold CBox.fine at hfine ⊢
        rw [h3.params.diffLast, h3.params.diff]
        exact hfine
      have hfor : h.forward = true := by
        by_contra hn
        unfold CBox.reset at h4
        rw [if_pos ⟨hfh, by simpa using hn⟩] at h4
        cases h4
      have hdd : (2 * d - d : Rat) = d := by linarith
      have key : (h.reset w').2.1.diff = some d ∧ (h.reset w').2.1.diffLast = some (2 * d) ∧ (h.reset w').2.1.maxY = f.maxY - d := by
        have h1' : h.diff = some d := h3.params.diff.trans h1
        unfold CBox.reset
        rw [if_neg (by rw [hfor]; simp)]
        simp only [h1', hfh, if_true, Option.getD_some, hfor, h3.params.maxY]
        refine ⟨?_, ?_, ?_⟩
        · congr 1; linarith
        · congr 1; linarith
        · linarith
      obtain ⟨k1, k2, k3⟩ := key
      refine ih hb'.good hb'.fresh _ hb'.resetting k1 k2 ?_ ?_
      · rw [hb'.total, hb'.minY, k3]
        push_cast at hk
        linarith
      · unfold CBox.fine at hfine ⊢
        rw [k1, k2, ← h1, ← h2]
        exact hfine

theorem half_steps {bound : σ → Rat} (hb : Bounded exec bound) (n : Nat) (d : Rat) (hd : 0 < d) (hn : d < 2 ^ n) {f : CBox σ} (hg : GoodBox f) (hf : FreshBox f)
    (w : COut P B C) (hres : f.resetting = true) (h1 : f.diff = some d) (h2 : f.diffLast = some (2 * d)) : Ends exec f w := by
  have hsmall : d < 1 → Ends exec f w := by
    intro hd1
    obtain ⟨k, hk⟩ := exists_nat_ge ((total bound f - (f.minY - f.maxY)) / d)
    refine small_steps hb d hd hd1 k hg hf w hres h1 h2 ?_
    rw [div_le_iff₀ hd] at hk
    linarith
  induction n generalizing d f w with
  | zero => exact hsmall (by simpa using hn)
  | succ n ih =>
    by_cases hd1 : d < 1
    · exact hsmall hd1
    · rcases attempt (exec := exec) bound hg w with h | ⟨h, w', h3, h4, h5⟩
      · exact h
      · apply h5
        have hb' := EndBox.next hg h3 h4
        have h1' : h.diff = some d := h3.params.diff.trans h1
        have hfh : ¬ h.fine = true := by
          unfold CBox.fine
          rw [h3.params.diffLast, h2, h1']
          simp only [Option.getD_some, Bool.and_eq_true, decide_eq_true_eq]
          intro hh
          exact hd1 (by linarith [hh.2])
        have key : (h.reset w').2.1.diff = some (d / 2) ∧ (h.reset w').2.1.diffLast = some (2 * (d / 2)) := by
          unfold CBox.reset
          rw [if_neg (fun hh => hfh hh.1)]
          simp only [h1', if_neg hfh, Option.getD_some]
          refine ⟨trivial, ?_⟩
          congr 1; linarith
        obtain ⟨k1, k2⟩ := key
        rw [pow_succ] at hn
        refine ih (d / 2) (by linarith) (by linarith) hb'.good hb'.fresh _ hb'.resetting k1 k2 ?_
        intro hd2
        obtain ⟨k, hk⟩ := exists_nat_ge ((total bound (h.reset w').2.1 - ((h.reset w').2.1.minY - (h.reset w').2.1.maxY)) / (d / 2))
        refine small_steps hb (d / 2) (by linarith) hd2 k hb'.good hb'.fresh _ hb'.resetting k1 k2 ?_
        rw [div_le_iff₀ (by linarith)] at hk
        linarith

/-- a box that was just set up, in a rectangle with a height -/
theorem setup_ends {bound : σ → Rat} (hb : Bounded exec bound) {f : CBox σ} (hg : GoodBox f) (hres : f.resetting = false) (hh : f.maxY < f.minY)
    (w : COut P B C) : Ends exec f w := by
  rcases attempt (exec := exec) bound hg w with h | ⟨h, w', h3, h4, h5⟩
  · exact h
  · apply h5
    have hb' := EndBox.next hg h3 h4
    have hfirst := hg.first hres
    have h1 : h.diff = none := h3.params.diff.trans hfirst.2
    have h2 : h.diffLast = none := h3.params.diffLast.trans hfirst.1
    have hfh : ¬ h.fine = true := by
      unfold CBox.fine
      rw [h2]
      simp
    have key : (h.reset w').2.1.diff = some ((f.minY - f.maxY) / 2) ∧ (h.reset w').2.1.diffLast = none := by
      unfold CBox.reset
      rw [if_neg (fun hh => hfh hh.1)]
      simp only [h1]
      exact ⟨by rw [h3.params.minY, h3.params.maxY], h2⟩
    obtain ⟨k1, k2⟩ := key
    generalize hg2 : (h.reset w').2.1 = f2 at k1 k2 hb' h5 ⊢
    rcases attempt (exec := exec) bound hb'.good (h.reset w').2.2 with h6 | ⟨h6, w6, j3, j4, j5⟩
    · exact h6
    · apply j5
      have hb6 := EndBox.next hb'.good j3 j4
      have h1' : h6.diff = some ((f.minY - f.maxY) / 2) := j3.params.diff.trans k1
      have hfh' : ¬ h6.fine = true := by
        unfold CBox.fine
        rw [j3.params.diffLast, k2]
        simp
      have key' : (h6.reset w6).2.1.diff = some ((f.minY - f.maxY) / 4) ∧ (h6.reset w6).2.1.diffLast = some (2 * ((f.minY - f.maxY) / 4)) := by
        unfold CBox.reset
        rw [if_neg (fun hh => hfh' hh.1)]
        simp only [h1', if_neg hfh', Option.getD_some]
        refine ⟨?_, ?_⟩
        · congr 1; linarith
        · congr 1; linarith
      obtain ⟨n, hn⟩ := pow_unbounded_of_one_lt ((f.minY - f.maxY) / 4) (show (1 : Rat) < 2 by norm_num)
      exact half_steps hb n _ (by linarith) hn hb6.good hb6.fresh _ hb6.resetting key'.1 key'.2

/-- a content box that only holds paragraphs, tables and images -/
def SimpleContent (s : CContent σ P B C) : Prop :=
  s.cols ≠ 0 ∧ (∀ e ∈ s.elements, simple e = true) ∧
    ∀ f, s.box = some f → f.cols = s.cols ∧ (∀ e ∈ f.elements, simple e = true) ∧ ∀ e ∈ f.sectionDelayed, simple e = true

theorem run_ends {bound : σ → Rat} (hb : Bounded exec bound) {s : CContent σ P B C} (hs : SimpleContent s) (x y width height : Rat) (hh : 0 < height) :
    ∃ n r, r ≠ .error none ∧ (∀ s', r = .ok s' → SimpleContent s') ∧ ∀ m, n ≤ m → s.run exec m x y width height = r := by
  obtain ⟨h0, h1, h2⟩ := hs
  have hbox : let f := s.box.getD (CBox.blank s.cols s.gap s.elements true)
      f.cols = s.cols ∧ (∀ e ∈ f.elements, simple e = true) ∧ ∀ e ∈ f.sectionDelayed, simple e = true := by
    cases hx : s.box with
    | none => exact ⟨rfl, h1, by intro e he; cases he⟩
    | some f => exact h2 f hx
  have hend := setup_ends (exec := exec) hb (f := (s.box.getD (CBox.blank s.cols s.gap s.elements true)).setup x width y (y - height) 0)
    ⟨hbox.2.1, hbox.2.2, hbox.2.2, by show 0 < (s.box.getD _).cols; rw [hbox.1]; omega, fun _ => ⟨rfl, rfl⟩⟩ rfl (by show y - height < y; linarith) ⟨[], [], []⟩
  obtain ⟨n, r, hr, hn⟩ := hend
  have hcols : ((s.box.getD (CBox.blank s.cols s.gap s.elements true)).setup x width y (y - height) 0).cols = s.cols := hbox.1
  rw [hcols] at hr
  cases r with
  | error e =>
    cases e with
    | none => exact absurd hr (by simp [Stopped])
    | some e =>
      refine ⟨n, .error (some e), by simp, (fun s' h => by cases h), ?_⟩
      intro m hm
      unfold CContent.run
      rw [if_neg h0]
      simp only
      rw [hn m hm]
  | ok q =>
    obtain ⟨a, stk, w⟩ := q
    obtain ⟨f, rfl, k1, k2, k3⟩ := hr
    refine ⟨n, .ok { s with
      box := some f
      out := w
      finished := s.finished || (a = .cont)
      currentHeight := f.minY - (if f.cols > 1 then f.maxY else f.y) }, by simp, ?_, ?_⟩
    rotate_left
    · intro m hm
      unfold CContent.run
      rw [if_neg h0]
      simp only
      rw [hn m hm]
    · intro s' hs'
      simp only [Except.ok.injEq] at hs'
      subst hs'
      refine ⟨h0, h1, ?_⟩
      intro f' hf'
      simp only [Option.some.injEq] at hf'
      subst hf'
      exact ⟨k1, k2, k3⟩

/-- C36 (partial): a content box with any number of columns that holds paragraphs, tables and images is laid out in any sequence of rectangles with a height, after
finitely many steps: balancing the columns ends. Of the contents nothing is asked but that they are finished, taking no more than a certain height, whenever they
are given that height. Partial because in a rectangle of height 0 it may not end (`C36_no_height_false`), and because of nested boxes and groups. -/
theorem C36_balancing_partial (exec : σ → Rat → Rat → Rat → Rat → Except PyErr (CellOut σ P B C)) (bound : σ → Rat) (hb : Bounded exec bound)
    (cols : Nat) (hc : cols ≠ 0) (gap : Option Rat) (els : List (CEl σ)) (hs : ∀ e ∈ els, simple e = true)
    (rects : List (Rat × Rat × Rat × Rat)) (hh : ∀ r ∈ rects, 0 < r.2.2.2) :
    ∃ n, ∃ r : CRun (List (CPart P) × CContent σ P B C), r ≠ .error none ∧
      ∀ m, n ≤ m → (CContent.new cols gap els : CContent σ P B C).runs exec m rects = r := by
  have key : ∀ (rects : List (Rat × Rat × Rat × Rat)) (s : CContent σ P B C), SimpleContent s → (∀ r ∈ rects, 0 < r.2.2.2) →
      ∃ n, ∃ r : CRun (List (CPart P) × CContent σ P B C), r ≠ .error none ∧ ∀ m, n ≤ m → s.runs exec m rects = r := by
    intro rects
    induction rects with
    | nil => intro s _ _; exact ⟨0, .ok ([], s), by simp, fun m _ => rfl⟩
    | cons q l ih =>
      obtain ⟨x, y, w, h⟩ := q
      intro s hs hh
      by_cases hf : s.finished = true
      · exact ⟨0, .ok ([], s), by simp, fun m _ => by rw [CContent.runs, if_pos hf]⟩
      · obtain ⟨n, r, h1, h2, h3⟩ := run_ends (exec := exec) hb hs x y w h (hh (x, y, w, h) (by simp))
        cases r with
        | error e =>
          refine ⟨n, .error e, by simpa using h1, ?_⟩
          intro m hm
          rw [CContent.runs, if_neg hf, h3 m hm]
        | ok s' =>
          obtain ⟨n', r', h4, h5⟩ := ih s' (h2 s' rfl) (fun r hr => hh r (by simp [hr]))
          cases r' with
          | error e =>
            refine ⟨max n n', .error e, by simpa using h4, ?_⟩
            intro m hm
            rw [CContent.runs, if_neg hf, h3 m (by omega)]
            simp only
            rw [h5 m (by omega)]
          | ok q =>
            refine ⟨max n n', .ok (s'.out.parts ++ q.1, q.2), by simp, ?_⟩
            intro m hm
            rw [CContent.runs, if_neg hf, h3 m (by omega)]
            simp only
            rw [h5 m (by omega)]
  exact key rects _ ⟨hc, hs, by intro f hf; cases hf⟩ hh

end

/-! ### Examples and counterexamples -/

theorem lines_bounded : Bounded linesExec (fun c => 10 * c.length) := by
  intro c x y w h o hb ho
  cases ho
  have hn : c.length ≤ (h / 10).floor.toNat := by
    have h1 : ((c.length : Int) : Rat) ≤ h / 10 := by push_cast; linarith
    have h2 : (c.length : Int) ≤ (h / 10).floor := Rat.le_floor_iff.2 h1
    omega
  simp only
  rw [List.drop_eq_nil_of_le hn, List.take_of_length_le hn]
  exact ⟨rfl, le_refl _⟩

/-- three columns, an image and two paragraphs -/
example : ∃ n, ∃ r : CRun (List (CPart Str) × CContent Str Str Unit Unit), r ≠ .error none ∧
    ∀ m, n ≤ m → (CContent.new 3 none [.leaf c!"abcdefg" contStyle, .image ⟨7, 50, 10, 0, contStyle⟩, .leaf c!"xyz" contStyle]).runs linesExec m
      [(0, 500, 100, 20), (0, 500, 100, 50)] = r :=
  C36_balancing_partial linesExec _ lines_bounded 3 (by decide) none _ (by decide) _ (by decide +kernel)

/-- an empty box -/
structure EmptyBox (f : CBox σ) : Prop where
  elements : f.elements = []
  delayed : f.delayed = []
  section_ : f.sectionDelayed = []
  cols : f.cols = 2
  flat : f.minY = f.maxY
  last : f.diffLast = none ∨ f.diffLast = some 0
  diff : f.diff = none ∨ f.diff = some 0

theorem empty_reset {f : CBox σ} (h : EmptyBox f) (w : COut P B C) : (f.reset w).1 = true ∧ EmptyBox (f.reset w).2.1 := by
  have hf : f.fine = false := by
    unfold CBox.fine
    rcases h.last with h | h <;> rw [h] <;> rfl
  unfold CBox.reset
  rw [if_neg (by rw [hf]; simp)]
  refine ⟨rfl, ?_⟩
  simp only [hf]
  rcases h.diff with hd | hd
  · simp only [hd]
    exact ⟨h.elements, h.section_, h.section_, h.cols, by show f.minY = f.maxY + (f.minY - f.maxY) / 2; rw [h.flat]; simp, h.last,
      Or.inr (by show some ((f.minY - f.maxY) / 2) = some 0; rw [h.flat]; simp)⟩
  · simp only [hd]
    refine ⟨h.elements, h.section_, h.section_, h.cols, ?_, Or.inr (by simp), Or.inr (by simp)⟩
    show f.minY = if f.forward then f.maxY - _ else f.maxY + _
    rw [h.flat]
    simp

/-- C36 fails in a rectangle of height 0: a content box without content and with two columns does not end, as `if self.minim_diff_last` does not
tell a difference of 0 from no difference at all -/
theorem C36_no_height_false (exec : σ → Rat → Rat → Rat → Rat → Except PyErr (CellOut σ P B C)) (fuel : Nat) (x y width : Rat) :
    (CContent.new 2 none [] : CContent σ P B C).run exec fuel x y width 0 = .error none := by
  have key : ∀ (n : Nat) (f : CBox σ) (w : COut P B C), EmptyBox f → contentRun exec n [f] w = .error none := by
    intro n
    induction n with
    | zero => intro f w _; rw [contentRun]
    | succ n ih =>
      intro f w hf
      rw [contentRun]
      cases n with
      | zero => rw [CBox.addDelayed]
      | succ n =>
        rw [CBox.addDelayed, hf.delayed]
        simp only [List.getElem?_nil, ne_eq, not_true, false_and, if_false]
        rw [show answerAct .cont [f] w = (.cont, [f], w) from rfl]
        simp only
        rw [contentElements, hf.elements]
        simp only [List.getElem?_nil]
        rw [show answerAct .cont [f] w = (.cont, [f], w) from rfl]
        simp only
        rw [if_neg (by rw [hf.delayed]; simp)]
        by_cases hr : f.resetting = true
        · have h2 : EmptyBox { f with forward := false } := ⟨hf.1, hf.2, hf.3, hf.4, hf.5, hf.6, hf.7⟩
          obtain ⟨h3, h4⟩ := empty_reset h2 w
          rw [if_neg (by rw [hr]; simp), if_pos hr, if_pos h3]
          exact ih _ _ h4
        · have h2 : EmptyBox { f with willReset := true } := ⟨hf.1, hf.2, hf.3, hf.4, hf.5, hf.6, hf.7⟩
          obtain ⟨h3, h4⟩ := empty_reset h2 w
          rw [if_pos ⟨hr, by rw [hf.cols]; decide⟩]
          exact ih _ _ h4
  unfold CContent.run
  rw [if_neg (by show ¬ 2 = 0; decide)]
  simp only
  rw [key]
  exact ⟨rfl, rfl, rfl, rfl, by show y = y - 0; simp, Or.inl rfl, Or.inl rfl⟩

end Verif
