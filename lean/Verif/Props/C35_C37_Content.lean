import Verif.Spec.Contents
import Verif.Props.C29_C33_Cells
/-! C35 and C37: a content box shows every element once and in order, whatever the rectangles, and balancing its columns leaves no text or image of the
abandoned attempts. -/
namespace Verif
open Spec

variable {σ P B C A : Type}

/-- what the elements of a box do not change: all but the position in the column -/
structure BoxFrame (f f' : CBox σ) : Prop where
  elements : f'.elements = f.elements
  cols : f'.cols = f.cols
  gapOpt : f'.gapOpt = f.gapOpt
  last : f'.last = f.last
  sectionIndex : f'.sectionIndex = f.sectionIndex
  sectionDelayed : f'.sectionDelayed = f.sectionDelayed
  childrenMemory : f'.childrenMemory = f.childrenMemory
  partialMemory : f'.partialMemory = f.partialMemory
  minX : f'.minX = f.minX
  minY : f'.minY = f.minY
  maxY : f'.maxY = f.maxY
  colsGap : f'.colsGap = f.colsGap
  colWidth : f'.colWidth = f.colWidth
  column : f'.column = f.column
  index : f'.index = f.index
  delayed : f'.delayed = f.delayed
  willReset : f'.willReset = f.willReset
  resetting : f'.resetting = f.resetting
  partsIndex : f'.partsIndex = f.partsIndex
  diffLast : f'.diffLast = f.diffLast
  diff : f'.diff = f.diff
  forward : f'.forward = f.forward

theorem BoxFrame.refl (f : CBox σ) : BoxFrame f f := ⟨rfl, rfl, rfl, rfl, rfl, rfl, rfl, rfl, rfl, rfl, rfl, rfl, rfl, rfl, rfl, rfl, rfl, rfl, rfl, rfl, rfl, rfl⟩

theorem BoxFrame.trans {f g h : CBox σ} (a : BoxFrame f g) (b : BoxFrame g h) : BoxFrame f h :=
  ⟨b.elements.trans a.elements, b.cols.trans a.cols, b.gapOpt.trans a.gapOpt, b.last.trans a.last, b.sectionIndex.trans a.sectionIndex, b.sectionDelayed.trans a.sectionDelayed, b.childrenMemory.trans a.childrenMemory, b.partialMemory.trans a.partialMemory, b.minX.trans a.minX, b.minY.trans a.minY, b.maxY.trans a.maxY, b.colsGap.trans a.colsGap, b.colWidth.trans a.colWidth, b.column.trans a.column, b.index.trans a.index, b.delayed.trans a.delayed, b.willReset.trans a.willReset, b.resetting.trans a.resetting, b.partsIndex.trans a.partsIndex, b.diffLast.trans a.diffLast, b.diff.trans a.diff, b.forward.trans a.forward⟩

theorem descend_frame (f : CBox σ) (st : CStyle) (m : Bool) : BoxFrame f (f.descend st m) := by
  unfold CBox.descend
  split <;> exact ⟨rfl, rfl, rfl, rfl, rfl, rfl, rfl, rfl, rfl, rfl, rfl, rfl, rfl, rfl, rfl, rfl, rfl, rfl, rfl, rfl, rfl, rfl⟩

theorem took_frame (f : CBox σ) (y h : Rat) (st : CStyle) : BoxFrame f (f.took y h st) := by
  unfold CBox.took
  split <;> exact ⟨rfl, rfl, rfl, rfl, rfl, rfl, rfl, rfl, rfl, rfl, rfl, rfl, rfl, rfl, rfl, rfl, rfl, rfl, rfl, rfl, rfl, rfl⟩

theorem leaf_frame {exec : σ → Rat → Rat → Rat → Rat → Except PyErr (CellOut σ P B C)} {f f' : CBox σ} {w w' : COut P B C} {c : σ} {st : CStyle} {a m : Bool}
    {r : Option σ} (h : f.leaf exec w c st a m = .ok (r, f', w')) : BoxFrame f f' := by
  unfold CBox.leaf at h
  simp only at h
  split at h
  · cases h
  · simp only [Except.ok.injEq, Prod.mk.injEq] at h
    obtain ⟨-, rfl, -⟩ := h
    exact (descend_frame _ _ _).trans (took_frame _ _ _ _)

theorem image_frame {f f' : CBox σ} {w w' : COut P B C} {i : CImg} {a m : Bool}
    {r : Option CImg} (h : f.image w i a m = .ok (r, f', w')) : BoxFrame f f' := by
  unfold CBox.image at h
  simp only at h
  split at h
  · cases h
  · split at h
    · simp only [Except.ok.injEq, Prod.mk.injEq] at h
      obtain ⟨-, rfl, -⟩ := h
      exact (descend_frame f i.style m).trans ⟨rfl, rfl, rfl, rfl, rfl, rfl, rfl, rfl, rfl, rfl, rfl, rfl, rfl, rfl, rfl, rfl, rfl, rfl, rfl, rfl, rfl, rfl⟩
    · split at h
      · cases h
      · simp only [Except.ok.injEq, Prod.mk.injEq] at h
        obtain ⟨-, rfl, -⟩ := h
        exact (descend_frame f i.style m).trans ⟨rfl, rfl, rfl, rfl, rfl, rfl, rfl, rfl, rfl, rfl, rfl, rfl, rfl, rfl, rfl, rfl, rfl, rfl, rfl, rfl, rfl, rfl⟩

section
variable {exec : σ → Rat → Rat → Rat → Rat → Except PyErr (CellOut σ P B C)} {atoms : P → List A} {rest : σ → List A}

/-- the rest of an element that was not placed completely -/
def restEl (rest : σ → List A) : Option (CEl σ) → List (CAtom A)
  | some d => elAtoms rest d
  | none => []

/-- one element: what it shows, and what is left of it -/
structure Processed (rest : σ → List A) (atoms : P → List A) (f f' : CBox σ) (w w' : COut P B C) (e e' : CEl σ) (a : CAns σ) (u : List (CAtom A)) : Prop where
  frame : BoxFrame f f'
  parts : w'.parts.flatMap (boxAtoms atoms) = w.parts.flatMap (boxAtoms atoms) ++ u
  all : u ++ restEl rest a.delayed = elAtoms rest e
  same : elAtoms rest e' = elAtoms rest e ∧ flows e' = flows e ∧ flat e' = true
  kind : ∀ d, a.delayed = some d → flows d = flows e ∧ flat d = true
  next : a.next = true → flows e = false ∧ a.delayed ≠ none
  stay : a.next = false → a.delayed ≠ none → flows e = true
  flow : a.flow = true → a.delayed ≠ none
  other : a.next = false → a.flow = false → ∀ d, a.delayed = some d → flows d = true

theorem process_flat (H : Honest exec atoms rest) {f f' : CBox σ} {w w' : COut P B C} {e e' : CEl σ} {a : CAns σ} (hf : flat e = true)
    (h : f.process exec w e = .ok (a, e', f', w')) : ∃ u, Processed rest atoms f f' w w' e e' a u := by
  unfold CBox.process at h
  cases e with
  | leaf c st =>
    simp only at h
    cases h1 : f.leaf exec w c st true true with
    | error e => rw [h1] at h; cases h
    | ok q =>
      obtain ⟨r, f1, w1⟩ := q
      rw [h1] at h
      have hfr := leaf_frame h1
      unfold CBox.leaf at h1
      simp only at h1
      split at h1
      · cases h1
      · rename_i o ho
        simp only [if_true, Except.ok.injEq, Prod.mk.injEq] at h1
        obtain ⟨hr, -, hw⟩ := h1
        have hstep := H.step _ _ _ _ _ _ ho
        have hp : w1.parts.flatMap (boxAtoms atoms) = w.parts.flatMap (boxAtoms atoms) ++ (o.parts.flatMap atoms).map CAtom.text := by
          rw [← hw]
          simp only [COut.add, List.flatMap_append, List.flatMap_map, List.append_cancel_left_eq]
          simp only [boxAtoms, List.map_flatMap]
        cases hfin : o.finished with
        | true =>
          rw [hfin] at hr
          simp only [if_true] at hr
          subst hr
          simp only [Except.ok.injEq, Prod.mk.injEq] at h
          obtain ⟨rfl, rfl, rfl, rfl⟩ := h
          refine ⟨(o.parts.flatMap atoms).map CAtom.text, hfr, hp, ?_, ⟨rfl, rfl, rfl⟩, by simp, by simp, by simp, by simp, by simp⟩
          rw [H.done _ _ _ _ _ _ ho hfin, List.append_nil] at hstep
          simp [restEl, elAtoms, hstep]
        | false =>
          rw [hfin] at hr
          simp only [Bool.false_eq_true, if_false] at hr
          subst hr
          simp only [Except.ok.injEq, Prod.mk.injEq] at h
          obtain ⟨rfl, rfl, rfl, rfl⟩ := h
          refine ⟨(o.parts.flatMap atoms).map CAtom.text, hfr, hp, ?_, ⟨rfl, rfl, rfl⟩, ?_, ?_, by simp, by simp, by simp⟩
          · simp only [restEl, elAtoms, ← hstep, List.map_append]
          · intro d hd; cases hd; exact ⟨rfl, rfl⟩
          · intro _; exact ⟨rfl, by simp⟩
  | image i =>
    simp only at h
    cases h1 : f.image w i true true with
    | error e => rw [h1] at h; cases h
    | ok q =>
      obtain ⟨r, f1, w1⟩ := q
      rw [h1] at h
      have hfr := image_frame h1
      unfold CBox.image at h1
      simp only at h1
      split at h1
      · cases h1
      · split at h1
        · simp only [if_true, Except.ok.injEq, Prod.mk.injEq] at h1
          obtain ⟨rfl, -, rfl⟩ := h1
          simp only [Except.ok.injEq, Prod.mk.injEq] at h
          obtain ⟨rfl, rfl, rfl, rfl⟩ := h
          refine ⟨[.image i.name], hfr, ?_, by simp [restEl, elAtoms], ⟨rfl, rfl, rfl⟩, by simp, by simp, by simp, by simp, by simp⟩
          simp [boxAtoms]
        · split at h1
          · cases h1
          · simp only [Except.ok.injEq, Prod.mk.injEq] at h1
            obtain ⟨rfl, -, rfl⟩ := h1
            simp only [Except.ok.injEq, Prod.mk.injEq] at h
            obtain ⟨rfl, rfl, rfl, rfl⟩ := h
            refine ⟨[], hfr, by simp, by simp [restEl, elAtoms], ⟨rfl, rfl, rfl⟩, ?_, ?_, ?_, by simp, ?_⟩
            · intro d hd; cases hd; exact ⟨rfl, rfl⟩
            · intro hn
              exact ⟨by simpa [flows] using hn, by simp⟩
            · intro hn _
              simpa [flows] using hn
            · intro hn _ d hd
              cases hd
              simpa [flows] using hn
  | group l t st => cases hf
  | child cols gap els st => cases hf

/-! ### What is left of the elements -/

/-- the delayed elements with the places they came from: what is left of element `j` there -/
def waiting (rest : σ → List A) (D : List (Nat × CEl σ)) (j : Nat) : List (CAtom A) := (D.filter (·.1 = j)).flatMap fun p => elAtoms rest p.2

theorem waiting_append (X Y : List (Nat × CEl σ)) (j : Nat) : waiting rest (X ++ Y) j = waiting rest X j ++ waiting rest Y j := by
  simp [waiting, List.filter_append, List.flatMap_append]

theorem waiting_cons (p : Nat × CEl σ) (Y : List (Nat × CEl σ)) (j : Nat) :
    waiting rest (p :: Y) j = (if p.1 = j then elAtoms rest p.2 else []) ++ waiting rest Y j := by
  unfold waiting
  by_cases h : p.1 = j <;> simp [h]

theorem waiting_nil (D : List (Nat × CEl σ)) (j : Nat) (h : ∀ p ∈ D, p.1 ≠ j) : waiting rest D j = [] := by
  unfold waiting
  rw [List.filter_eq_nil_iff.2 (by intro p hp; simpa using h p hp)]
  rfl

theorem ofElement_append (t u : List (Nat × CAtom A)) (j : Nat) : ofElement (t ++ u) j = ofElement t j ++ ofElement u j := by
  simp [ofElement, List.filter_append]

theorem ofElement_tag (i : Nat) (u : List (CAtom A)) (j : Nat) : ofElement (u.map fun a => (i, a)) j = if i = j then u else [] := by
  unfold ofElement
  by_cases h : i = j
  · subst h
    rw [if_pos rfl, List.filter_eq_self.2 (by intro e he; obtain ⟨a, -, rfl⟩ := List.mem_map.1 he; simp)]
    simp
  · rw [if_neg h, List.filter_eq_nil_iff.2 (by intro e he; obtain ⟨a, -, rfl⟩ := List.mem_map.1 he; simpa using h)]
    rfl

/-- the elements before `idx` were handed out, the delayed ones not completely -/
structure WaitInv (rest : σ → List A) (els : List (CEl σ)) (idx : Nat) (D : List (Nat × CEl σ)) (t : List (Nat × CAtom A)) : Prop where
  inc : (D.map Prod.fst).Pairwise (· < ·)
  lt : ∀ p ∈ D, p.1 < idx
  flat : ∀ p ∈ D, flat p.2 = true
  kind : ∀ p ∈ D, flows p.2 = flowsAt els p.1
  eq : ∀ j, ofElement t j ++ (if idx ≤ j then atomsAt rest els j else waiting rest D j) = atomsAt rest els j
  labels : ∀ e ∈ t, e.1 < idx
  order : DocOrder els t
  wait : ∀ p ∈ D, flowsAt els p.1 = false → ∀ e ∈ t, e.1 ≤ p.1

theorem WaitInv.new (els : List (CEl σ)) : WaitInv rest els 0 [] ([] : List (Nat × CAtom A)) :=
  ⟨List.Pairwise.nil, by simp, by simp, by simp, by intro j; simp [ofElement], by simp, List.Pairwise.nil, by simp⟩

theorem order_tag {els : List (CEl σ)} {t : List (Nat × CAtom A)} {i : Nat} (h : DocOrder els t) (hi : flowsAt els i = false → ∀ e ∈ t, e.1 ≤ i) (u : List (CAtom A)) :
    DocOrder els (t ++ u.map fun a => (i, a)) := by
  unfold DocOrder
  rw [List.pairwise_append]
  refine ⟨h, ?_, ?_⟩
  · rw [List.pairwise_map]
    exact List.Pairwise.imp (fun _ => Or.inl (le_refl _)) (List.pairwise_of_forall (R := fun _ _ => True) (by simp))
  · intro a ha b hb
    obtain ⟨x, -, rfl⟩ := List.mem_map.1 hb
    cases hfl : flowsAt els i with
    | true => exact Or.inr rfl
    | false => exact Or.inl (hi hfl a ha)

/-- a delayed element is processed, all those before it being images that flow -/
theorem WaitInv.late {els : List (CEl σ)} {idx : Nat} {X Y : List (Nat × CEl σ)} {i : Nat} {d : CEl σ} {t : List (Nat × CAtom A)}
    (hi : WaitInv rest els idx (X ++ (i, d) :: Y) t) (hX : ∀ p ∈ X, flowsAt els p.1 = true) {r : Option (CEl σ)} {u : List (CAtom A)}
    (hall : u ++ restEl rest r = elAtoms rest d) (hkind : ∀ d', r = some d' → flows d' = flows d ∧ Spec.flat d' = true) :
    WaitInv rest els idx (X ++ (r.toList.map fun d => (i, d)) ++ Y) (t ++ u.map fun a => (i, a)) := by
  have hinc := hi.inc
  rw [List.map_append, List.map_cons, List.pairwise_append] at hinc
  obtain ⟨c1, c2, c3⟩ := hinc
  rw [List.pairwise_cons] at c2
  have hXlt : ∀ p ∈ X, p.1 < i := fun p hp => c3 p.1 (List.mem_map.2 ⟨p, hp, rfl⟩) i (by simp)
  have hYlt : ∀ p ∈ Y, i < p.1 := fun p hp => c2.1 p.1 (List.mem_map.2 ⟨p, hp, rfl⟩)
  have hmem : ∀ p ∈ X ++ (r.toList.map fun d => (i, d)) ++ Y, p ∈ X ++ (i, d) :: Y ∨ (∃ d', r = some d' ∧ p = (i, d')) := by
    intro p hp
    simp only [List.mem_append, List.mem_map, Option.mem_toList] at hp
    rcases hp with (hp | ⟨d', hd, rfl⟩) | hp
    · left; simp [hp]
    · right; exact ⟨d', hd, rfl⟩
    · left; simp [hp]
  have hiidx : i < idx := hi.lt (i, d) (by simp)
  refine ⟨?_, ?_, ?_, ?_, ?_, ?_, ?_, ?_⟩
  · simp only [List.map_append, List.map_map]
    rw [List.pairwise_append, List.pairwise_append]
    refine ⟨⟨c1, ?_, ?_⟩, c2.2, ?_⟩
    · cases r <;> simp
    · intro a ha b hb
      have : b = i := by
        cases r with
        | none => simp at hb
        | some d' => simpa using hb
      rw [this]
      exact c3 a ha i (by simp)
    · intro a ha b hb
      rw [List.mem_append] at ha
      rcases ha with ha | ha
      · exact c3 a ha b (by simp [hb])
      · have : a = i := by
          cases r with
          | none => simp at ha
          | some d' => simpa using ha
        rw [this]
        exact c2.1 b hb
  · intro p hp
    rcases hmem p hp with hp | ⟨d', -, rfl⟩
    · exact hi.lt p hp
    · exact hiidx
  · intro p hp
    rcases hmem p hp with hp | ⟨d', hd, rfl⟩
    · exact hi.flat p hp
    · exact (hkind d' hd).2
  · intro p hp
    rcases hmem p hp with hp | ⟨d', hd, rfl⟩
    · exact hi.kind p hp
    · rw [(hkind d' hd).1]
      exact hi.kind (i, d) (by simp)
  · intro j
    have := hi.eq j
    rw [ofElement_append, ofElement_tag]
    by_cases hj : idx ≤ j
    · rw [if_pos hj] at this ⊢
      rw [if_neg (by omega), List.append_nil]
      exact this
    · rw [if_neg hj] at this ⊢
      rw [waiting_append, waiting_cons] at this
      rw [waiting_append, waiting_append]
      by_cases hij : i = j
      · subst hij
        rw [if_pos rfl] at this ⊢
        rw [waiting_nil X i (fun p hp => by have := hXlt p hp; omega), List.nil_append] at this ⊢
        have hw : waiting rest (r.toList.map fun d => (i, d)) i = restEl rest r := by
          cases r <;> simp [waiting, restEl]
        rw [hw, ← this]
        simp only at this
        simp only [← hall, List.append_assoc]
      · rw [if_neg hij] at this ⊢
        have hw : waiting rest (r.toList.map fun d => (i, d)) j = [] := waiting_nil _ _ (by
          intro p hp
          obtain ⟨d', -, rfl⟩ := List.mem_map.1 hp
          exact hij)
        rw [hw, List.append_nil, List.append_nil]
        simpa using this
  · intro e he
    rw [List.mem_append] at he
    rcases he with he | he
    · exact hi.labels e he
    · obtain ⟨a, -, rfl⟩ := List.mem_map.1 he
      exact hiidx
  · exact order_tag hi.order (hi.wait (i, d) (by simp)) u
  · intro p hp hfl e he
    rw [List.mem_append] at he
    have h1 : ∀ e ∈ t, e.1 ≤ p.1 := by
      rcases hmem p hp with hp | ⟨d', hd, rfl⟩
      · exact hi.wait p hp hfl
      · exact hi.wait (i, d) (by simp) hfl
    rcases he with he | he
    · exact h1 e he
    · obtain ⟨a, -, rfl⟩ := List.mem_map.1 he
      simp only [List.mem_append, List.mem_map, Option.mem_toList] at hp
      rcases hp with (hp | ⟨d', hd, rfl⟩) | hp
      · rw [hX p hp] at hfl; cases hfl
      · exact le_refl _
      · exact le_of_lt (hYlt p hp)

/-- the next element is processed, all the delayed ones being images that flow -/
theorem WaitInv.fresh {els : List (CEl σ)} {idx : Nat} {D : List (Nat × CEl σ)} {t : List (Nat × CAtom A)}
    (hi : WaitInv rest els idx D t) (hD : ∀ p ∈ D, flowsAt els p.1 = true) {r : Option (CEl σ)} {u : List (CAtom A)}
    (hall : u ++ restEl rest r = atomsAt rest els idx) (hkind : ∀ d', r = some d' → flows d' = flowsAt els idx ∧ Spec.flat d' = true) :
    WaitInv rest els (idx + 1) (D ++ r.toList.map fun d => (idx, d)) (t ++ u.map fun a => (idx, a)) := by
  have hmem : ∀ p ∈ D ++ (r.toList.map fun d => (idx, d)), p ∈ D ∨ (∃ d', r = some d' ∧ p = (idx, d')) := by
    intro p hp
    simp only [List.mem_append, List.mem_map, Option.mem_toList] at hp
    rcases hp with hp | ⟨d', hd, rfl⟩
    · left; exact hp
    · right; exact ⟨d', hd, rfl⟩
  refine ⟨?_, ?_, ?_, ?_, ?_, ?_, ?_, ?_⟩
  · simp only [List.map_append, List.map_map]
    rw [List.pairwise_append]
    refine ⟨hi.inc, by cases r <;> simp, ?_⟩
    intro a ha b hb
    obtain ⟨p, hp, rfl⟩ := List.mem_map.1 ha
    have : b = idx := by
      cases r with
      | none => simp at hb
      | some d' => simpa using hb
    rw [this]
    exact hi.lt p hp
  · intro p hp
    rcases hmem p hp with hp | ⟨d', -, rfl⟩
    · have := hi.lt p hp; omega
    · exact Nat.lt_succ_self _
  · intro p hp
    rcases hmem p hp with hp | ⟨d', hd, rfl⟩
    · exact hi.flat p hp
    · exact (hkind d' hd).2
  · intro p hp
    rcases hmem p hp with hp | ⟨d', hd, rfl⟩
    · exact hi.kind p hp
    · exact (hkind d' hd).1
  · intro j
    have := hi.eq j
    rw [ofElement_append, ofElement_tag]
    by_cases hj : idx = j
    · subst hj
      rw [if_pos (le_refl _)] at this
      have ht : ofElement t idx = [] := by
        have := congrArg List.length this
        simp only [List.length_append] at this
        exact List.eq_nil_of_length_eq_zero (by omega)
      rw [if_pos rfl, if_neg (by omega), ht, List.nil_append, waiting_append, waiting_nil D idx (fun p hp => by have := hi.lt p hp; omega), List.nil_append]
      have hw : waiting rest (r.toList.map fun d => (idx, d)) idx = restEl rest r := by
        cases r <;> simp [waiting, restEl]
      rw [hw, hall]
    · rw [if_neg hj, List.append_nil, waiting_append, waiting_nil (r.toList.map fun d => (idx, d)) j (by
        intro p hp
        obtain ⟨d', -, rfl⟩ := List.mem_map.1 hp
        exact hj), List.append_nil]
      have e : (if idx + 1 ≤ j then atomsAt rest els j else waiting rest D j) = (if idx ≤ j then atomsAt rest els j else waiting rest D j) := by
        by_cases h1 : idx ≤ j
        · rw [if_pos h1, if_pos (by omega)]
        · rw [if_neg h1, if_neg (by omega)]
      rw [e]
      exact this
  · intro e he
    rw [List.mem_append] at he
    rcases he with he | he
    · have := hi.labels e he; omega
    · obtain ⟨a, -, rfl⟩ := List.mem_map.1 he
      exact Nat.lt_succ_self _
  · exact order_tag hi.order (fun _ e he => le_of_lt (hi.labels e he)) u
  · intro p hp hfl e he
    rcases hmem p hp with hp | ⟨d', hd, rfl⟩
    · rw [hD p hp] at hfl; cases hfl
    · rw [List.mem_append] at he
      rcases he with he | he
      · exact le_of_lt (hi.labels e he)
      · obtain ⟨a, -, rfl⟩ := List.mem_map.1 he
        exact le_refl _

/-! ### The loops -/

/-- what the loops do not change -/
def Moved (f f' : CBox σ) : Prop := BoxFrame { f with delayed := f'.delayed, index := f'.index, elements := f'.elements } f'

theorem Moved.refl (f : CBox σ) : Moved f f := BoxFrame.refl _

theorem Moved.trans {f g h : CBox σ} (a : Moved f g) (b : Moved g h) : Moved f h :=
  ⟨rfl, b.cols.trans a.cols, b.gapOpt.trans a.gapOpt, b.last.trans a.last, b.sectionIndex.trans a.sectionIndex, b.sectionDelayed.trans a.sectionDelayed,
    b.childrenMemory.trans a.childrenMemory, b.partialMemory.trans a.partialMemory, b.minX.trans a.minX, b.minY.trans a.minY, b.maxY.trans a.maxY,
    b.colsGap.trans a.colsGap, b.colWidth.trans a.colWidth, b.column.trans a.column, rfl, rfl, b.willReset.trans a.willReset,
    b.resetting.trans a.resetting, b.partsIndex.trans a.partsIndex, b.diffLast.trans a.diffLast, b.diff.trans a.diff, b.forward.trans a.forward⟩

theorem BoxFrame.moved {f g : CBox σ} (a : BoxFrame f g) (els : List (CEl σ)) (i : Nat) (d : List (CEl σ)) :
    Moved f { g with elements := els, index := i, delayed := d } :=
  ⟨rfl, a.cols, a.gapOpt, a.last, a.sectionIndex, a.sectionDelayed, a.childrenMemory, a.partialMemory, a.minX, a.minY, a.maxY, a.colsGap, a.colWidth,
    a.column, rfl, rfl, a.willReset, a.resetting, a.partsIndex, a.diffLast, a.diff, a.forward⟩

/-- what matters of an element: its tries do not -/
def face (rest : σ → List A) (e : CEl σ) : List (CAtom A) × Bool × Bool := (elAtoms rest e, flows e, Spec.flat e)

/-- the elements as given, up to their tries -/
def SameEls (rest : σ → List A) (els els' : List (CEl σ)) : Prop := els'.map (face rest) = els.map (face rest)

theorem SameEls.get {els els' : List (CEl σ)} (h : SameEls rest els els') {i : Nat} {e : CEl σ} (he : els'[i]? = some e) :
    atomsAt rest els i = elAtoms rest e ∧ flowsAt els i = flows e ∧ ∃ e0, els[i]? = some e0 ∧ Spec.flat e0 = Spec.flat e := by
  have := congrArg (·[i]?) h
  simp only [List.getElem?_map, he, Option.map_some] at this
  cases h0 : els[i]? with
  | none => rw [h0] at this; cases this
  | some e0 =>
    rw [h0] at this
    simp only [Option.map_some, Option.some.injEq, face, Prod.mk.injEq] at this
    obtain ⟨h1, h2, h3⟩ := this
    exact ⟨by simp [atomsAt, h0, h1], by simp [flowsAt, h0, h2], e0, rfl, h3.symm⟩

theorem SameEls.set {els els' : List (CEl σ)} (h : SameEls rest els els') {i : Nat} {e e' : CEl σ} (he : els'[i]? = some e) (hf : face rest e' = face rest e) :
    SameEls rest els (els'.set i e') := by
  unfold SameEls
  rw [← h, List.map_set, hf]
  apply List.ext_getElem?
  intro j
  rw [List.getElem?_set]
  split
  · rename_i hij
    subst hij
    simp only [List.length_map, List.getElem?_map, he, Option.map_some]
    rw [if_pos (List.getElem?_eq_some_iff.1 he).1]
  · rfl

theorem addDelayed_inv (H : Honest exec atoms rest) {els : List (CEl σ)} (fuel : Nat) {X Y : List (Nat × CEl σ)} {f f' : CBox σ} {w w' : COut P B C}
    {t : List (Nat × CAtom A)} {act : CAct} (hi : WaitInv rest els f.index (X ++ Y) t) (hX : ∀ p ∈ X, flowsAt els p.1 = true)
    (hd : f.delayed = (X ++ Y).map Prod.snd) (h : f.addDelayed exec fuel X.length w = .ok (act, f', w')) :
    ∃ u D, w'.parts.flatMap (boxAtoms atoms) = w.parts.flatMap (boxAtoms atoms) ++ u.map Prod.snd ∧ WaitInv rest els f'.index D (t ++ u) ∧
      f'.delayed = D.map Prod.snd ∧ Moved f f' ∧ f'.index = f.index ∧ f'.elements = f.elements ∧
      (act = .next ∨ act = .cont ∧ ∀ p ∈ D, flowsAt els p.1 = true) := by
  induction fuel generalizing X Y f w t with
  | zero => cases h
  | succ fuel ih =>
    simp only [CBox.addDelayed] at h
    cases Y with
    | nil =>
      rw [List.append_nil] at hd hi
      have : f.delayed[X.length]? = none := by rw [hd]; simp
      rw [this] at h
      simp only [Except.ok.injEq, Prod.mk.injEq] at h
      obtain ⟨ha, rfl, rfl⟩ := h
      refine ⟨[], X, by simp, by simpa using hi, hd, Moved.refl _, rfl, rfl, ?_⟩
      rw [← ha]
      split
      · left; rfl
      · right; exact ⟨rfl, hX⟩
    | cons p Y =>
      obtain ⟨i, d⟩ := p
      have hget : f.delayed[X.length]? = some d := by rw [hd]; simp
      rw [hget] at h
      simp only at h
      cases h1 : f.process exec w d with
      | error e => rw [h1] at h; cases h
      | ok q =>
        obtain ⟨a, e', f1, w1⟩ := q
        rw [h1] at h
        simp only at h
        obtain ⟨u, hp⟩ := process_flat H (hi.flat (i, d) (by simp)) h1
        have hi1 := hi.late hX hp.all hp.kind
        have hd1 : replaceAt f1.delayed X.length a.delayed =
            (X ++ (a.delayed.toList.map fun d => (i, d)) ++ Y).map Prod.snd := by
          rw [hp.frame.delayed, hd]
          unfold replaceAt
          cases a.delayed with
          | none =>
            simp only [List.map_append, List.map_cons, Option.toList_none, List.map_nil, List.append_nil]
            rw [List.eraseIdx_append_of_length_le (by simp)]
            simp
          | some d' =>
            simp only [List.map_append, List.map_cons, Option.toList_some, List.map_nil, List.append_assoc, List.cons_append, List.nil_append]
            rw [List.set_append]
            simp
        rw [hd1] at h
        generalize hf2 : ({ f1 with delayed := (X ++ (a.delayed.toList.map fun d => (i, d)) ++ Y).map Prod.snd } : CBox σ) = f2 at h
        have hm : Moved f f2 := by
          rw [← hf2]
          have := hp.frame.moved f1.elements f1.index ((X ++ (a.delayed.toList.map fun d => (i, d)) ++ Y).map Prod.snd)
          exact this
        have hidx : f2.index = f.index := by rw [← hf2]; exact hp.frame.index
        have hels : f2.elements = f.elements := by rw [← hf2]; exact hp.frame.elements
        have hdl : f2.delayed = (X ++ (a.delayed.toList.map fun d => (i, d)) ++ Y).map Prod.snd := by rw [← hf2]
        rw [← hidx] at hi1
        by_cases hn : a.next = true
        · rw [if_pos hn] at h
          simp only [Except.ok.injEq, Prod.mk.injEq] at h
          obtain ⟨rfl, rfl, rfl⟩ := h
          exact ⟨u.map fun a => (i, a), _, by rw [hp.parts]; simp [Function.comp_def], hi1, hdl, hm, hidx, hels, Or.inl rfl⟩
        · rw [if_neg hn] at h
          have hn' : a.next = false := by simpa using hn
          have hnext : ∃ X' Y', X' ++ Y' = X ++ (a.delayed.toList.map fun d => (i, d)) ++ Y ∧ X'.length = (if a.flow = true then X.length + 1 else X.length) ∧
              ∀ p ∈ X', flowsAt els p.1 = true := by
            by_cases hfl : a.flow = true
            · rw [if_pos hfl]
              have := hp.flow hfl
              obtain ⟨d', hd'⟩ := Option.ne_none_iff_exists'.1 this
              refine ⟨X ++ [(i, d')], Y, by rw [hd']; simp, by simp, ?_⟩
              intro p hp'
              rw [List.mem_append] at hp'
              rcases hp' with hp' | hp'
              · exact hX p hp'
              · rw [List.mem_singleton.1 hp']
                have h2 := hi.kind (i, d) (by simp)
                simp only at h2
                rw [← h2]
                exact hp.stay hn' (by rw [hd']; simp)
            · rw [if_neg hfl]
              exact ⟨X, _, by rw [List.append_assoc], rfl, hX⟩
          obtain ⟨X', Y', hXY, hlen, hX'⟩ := hnext
          rw [← hlen] at h
          rw [← hXY] at hi1 hdl
          obtain ⟨u2, D, g1, g2, g3, g4, g5, g6, g7⟩ := ih hi1 hX' hdl h
          refine ⟨(u.map fun a => (i, a)) ++ u2, D, ?_, by rw [← List.append_assoc]; exact g2, g3, hm.trans g4, g5.trans hidx, g6.trans hels, g7⟩
          rw [g1, hp.parts]
          simp [Function.comp_def]

theorem elements_inv (H : Honest exec atoms rest) {els : List (CEl σ)} (hflat : ∀ e ∈ els, Spec.flat e = true) (fuel : Nat) {D : List (Nat × CEl σ)}
    {f : CBox σ} {anc stk : List (CBox σ)} {w w' : COut P B C}
    {t : List (Nat × CAtom A)} {act : CAct} (hi : WaitInv rest els f.index D t) (hD : ∀ p ∈ D, flowsAt els p.1 = true)
    (hd : f.delayed = D.map Prod.snd) (hs : SameEls rest els f.elements) (h : contentElements exec fuel (f :: anc) w = .ok (act, stk, w')) :
    ∃ u D f', stk = f' :: anc ∧ w'.parts.flatMap (boxAtoms atoms) = w.parts.flatMap (boxAtoms atoms) ++ u.map Prod.snd ∧ WaitInv rest els f'.index D (t ++ u) ∧
      f'.delayed = D.map Prod.snd ∧ Moved f f' ∧ SameEls rest els f'.elements ∧
      (act = .next ∨ act = .cont ∧ els.length ≤ f'.index) := by
  induction fuel generalizing D f w t with
  | zero => simp [contentElements] at h
  | succ fuel ih =>
    rw [contentElements] at h
    cases he : f.elements[f.index]? with
    | none =>
      rw [he] at h
      simp only [Except.ok.injEq, Prod.mk.injEq] at h
      obtain ⟨rfl, rfl, rfl⟩ := h
      refine ⟨[], D, f, rfl, by simp, by simpa using hi, hd, Moved.refl _, hs, Or.inr ⟨rfl, ?_⟩⟩
      have h1 := List.getElem?_eq_none_iff.1 he
      have h2 := congrArg List.length hs
      simp only [List.length_map] at h2
      omega
    | some e =>
      rw [he] at h
      obtain ⟨s1, s2, e0, s3, s4⟩ := hs.get he
      have hfe : Spec.flat e = true := by rw [← s4]; exact hflat e0 (List.mem_of_getElem? s3)
      have h' : (match f.process exec w e with
          | .error e => .error (some e)
          | .ok (a, e, f, w) =>
            if a.next then .ok (.next, { f with elements := f.elements.set f.index e, index := f.index + 1, delayed := f.delayed ++ a.delayed.toList } :: anc, w)
            else contentElements exec fuel ({ f with elements := f.elements.set f.index e, index := f.index + 1, delayed := f.delayed ++ a.delayed.toList } :: anc) w) =
          (.ok (act, stk, w') : CRun (CAct × List (CBox σ) × COut P B C)) := by
        cases e with
        | leaf c st => exact h
        | image i => exact h
        | group l t st => exact h
        | child => cases hfe
      clear h
      cases h1 : f.process exec w e with
      | error e => rw [h1] at h'; cases h'
      | ok q =>
        obtain ⟨a, e', f1, w1⟩ := q
        rw [h1] at h'
        simp only at h'
        obtain ⟨u, hp⟩ := process_flat H hfe h1
        have hi1 := hi.fresh hD (r := a.delayed) (u := u) (by rw [hp.all, s1]) (fun d' hd' => by rw [s2]; exact hp.kind d' hd')
        generalize hf2 : ({ f1 with elements := f1.elements.set f1.index e', index := f1.index + 1, delayed := f1.delayed ++ a.delayed.toList } : CBox σ) = f2 at h'
        have hm : Moved f f2 := by
          rw [← hf2]
          exact hp.frame.moved _ _ _
        have hidx : f2.index = f.index + 1 := by rw [← hf2, ← hp.frame.index]
        have hels : SameEls rest els f2.elements := by
          rw [← hf2]
          show SameEls rest els (f1.elements.set f1.index e')
          rw [hp.frame.elements, hp.frame.index]
          exact hs.set he (by unfold face; rw [hp.same.1, hp.same.2.1, hp.same.2.2, hfe])
        have hdl : f2.delayed = (D ++ a.delayed.toList.map fun d => (f.index, d)).map Prod.snd := by
          rw [← hf2]
          show f1.delayed ++ a.delayed.toList = _
          rw [hp.frame.delayed, hd]
          simp [Function.comp_def]
        rw [← hidx] at hi1
        by_cases hn : a.next = true
        · rw [if_pos hn] at h'
          simp only [Except.ok.injEq, Prod.mk.injEq] at h'
          obtain ⟨rfl, rfl, rfl⟩ := h'
          exact ⟨u.map fun a => (f.index, a), _, f2, rfl, by rw [hp.parts]; simp [Function.comp_def], hi1, hdl, hm, hels, Or.inl rfl⟩
        · rw [if_neg hn] at h'
          have hn' : a.next = false := by simpa using hn
          have hD' : ∀ p ∈ D ++ a.delayed.toList.map fun d => (f.index, d), flowsAt els p.1 = true := by
            intro p hp'
            simp only [List.mem_append, List.mem_map, Option.mem_toList] at hp'
            rcases hp' with hp' | ⟨d', hd', rfl⟩
            · exact hD p hp'
            · rw [s2]
              exact hp.stay hn' (by rw [hd']; simp)
          obtain ⟨u2, D2, f', g1, g2, g3, g4, g5, g6, g7⟩ := ih hi1 hD' hdl hels h'
          refine ⟨(u.map fun a => (f.index, a)) ++ u2, D2, f', g1, ?_, by rw [← List.append_assoc]; exact g3, g4, hm.trans g5, g6, g7⟩
          rw [g2, hp.parts]
          simp [Function.comp_def]

/-! ### A box without a parent -/

/-- `t0` was shown in earlier rectangles, `u` in this one -/
structure RootInv (rest : σ → List A) (atoms : P → List A) (els : List (CEl σ)) (t0 : List (Nat × CAtom A)) (f : CBox σ) (w : COut P B C)
    (u : List (Nat × CAtom A)) : Prop where
  sec : ∃ D, WaitInv rest els f.sectionIndex D t0 ∧ f.sectionDelayed = D.map Prod.snd
  cur : ∃ D, WaitInv rest els f.index D (t0 ++ u) ∧ f.delayed = D.map Prod.snd
  same : SameEls rest els f.elements
  parts : w.parts.flatMap (boxAtoms atoms) = u.map Prod.snd
  zero : f.partsIndex = 0
  mem : f.partialMemory = none

theorem RootInv.reset {els : List (CEl σ)} {t0 u : List (Nat × CAtom A)} {f : CBox σ} {w : COut P B C} (hi : RootInv rest atoms els t0 f w u) :
    (f.reset w).1 = true ∧ RootInv rest atoms els t0 (f.reset w).2.1 (f.reset w).2.2 [] ∨ (f.reset w).1 = false ∧ f.forward = false ∧ f.reset w = (false, f, w) := by
  unfold CBox.reset
  by_cases h : f.fine = true ∧ ¬ f.forward = true
  · rw [if_pos h]
    right
    exact ⟨rfl, by simpa using h.2, rfl⟩
  · rw [if_neg h]
    left
    refine ⟨rfl, ?_⟩
    obtain ⟨D, h1, h2⟩ := hi.sec
    cases f.diff with
    | none => exact ⟨⟨D, h1, h2⟩, ⟨D, by rw [List.append_nil]; exact h1, h2⟩, hi.same, by simp [hi.zero], hi.zero, hi.mem⟩
    | some d => exact ⟨⟨D, h1, h2⟩, ⟨D, by rw [List.append_nil]; exact h1, h2⟩, hi.same, by simp [hi.zero], hi.zero, hi.mem⟩

/-- the box stopped at the end of its rectangle -/
structure RootStop (rest : σ → List A) (atoms : P → List A) (els : List (CEl σ)) (t0 : List (Nat × CAtom A)) (f : CBox σ) (w : COut P B C)
    (u : List (Nat × CAtom A)) : Prop where
  sec : ∃ D, WaitInv rest els f.sectionIndex D (t0 ++ u) ∧ f.sectionDelayed = D.map Prod.snd
  same : SameEls rest els f.elements
  parts : w.parts.flatMap (boxAtoms atoms) = u.map Prod.snd
  mem : f.partialMemory = none

theorem RootInv.next {els : List (CEl σ)} {t0 u : List (Nat × CAtom A)} {f : CBox σ} {w w' : COut P B C} (hi : RootInv rest atoms els t0 f w u)
    {act : CAct} {stk : List (CBox σ)} (h : answerAct .next [f] w = (act, stk, w')) :
    (act = .retry ∧ ∃ f' u', stk = [f'] ∧ RootInv rest atoms els t0 f' w' u') ∨ (act = .interrupt ∧ ∃ f', stk = [f'] ∧ RootStop rest atoms els t0 f' w' u) := by
  simp only [answerAct, nextSection] at h
  by_cases hc : f.column + 1 = f.cols
  · rw [if_pos hc] at h
    by_cases hr : f.resetting = true
    · rw [if_pos hr] at h
      simp only [breakAct] at h
      rw [if_pos (Or.inr hr)] at h
      have hi' : RootInv rest atoms els t0 { f with forward := true } w u := ⟨hi.sec, hi.cur, hi.same, hi.parts, hi.zero, hi.mem⟩
      rcases hi'.reset with ⟨h1, h2⟩ | ⟨-, h2, -⟩
      · rw [h1] at h
        simp only [if_true, Prod.mk.injEq] at h
        obtain ⟨rfl, rfl, rfl⟩ := h
        exact Or.inl ⟨rfl, _, _, rfl, h2⟩
      · cases h2
    · rw [if_neg hr] at h
      simp only [Prod.mk.injEq] at h
      obtain ⟨rfl, rfl, rfl⟩ := h
      exact Or.inr ⟨rfl, _, rfl, hi.cur, hi.same, hi.parts, hi.mem⟩
  · rw [if_neg hc] at h
    simp only [Option.isSome_none, Bool.false_eq_true, and_false, if_false, Option.isNone_none, if_true, Prod.mk.injEq] at h
    obtain ⟨rfl, rfl, rfl⟩ := h
    exact Or.inl ⟨rfl, _, u, rfl, hi.sec, hi.cur, hi.same, hi.parts, hi.zero, hi.mem⟩

/-- how a run ends: at the end of the rectangle, or with all the elements shown -/
def RootEnd (rest : σ → List A) (atoms : P → List A) (els : List (CEl σ)) (t0 : List (Nat × CAtom A)) (act : CAct) (stk : List (CBox σ)) (w : COut P B C) : Prop :=
  ∃ f u, stk = [f] ∧ (act = .interrupt ∧ RootStop rest atoms els t0 f w u ∨
    act = .cont ∧ RootInv rest atoms els t0 f w u ∧ els.length ≤ f.index ∧ f.delayed = [])

theorem root_run (H : Honest exec atoms rest) {els : List (CEl σ)} (hflat : ∀ e ∈ els, Spec.flat e = true) (fuel : Nat) {f : CBox σ} {w w' : COut P B C}
    {t0 u : List (Nat × CAtom A)} {act : CAct} {stk : List (CBox σ)} (hi : RootInv rest atoms els t0 f w u)
    (h : contentRun exec fuel [f] w = .ok (act, stk, w')) : RootEnd rest atoms els t0 act stk w' := by
  induction fuel generalizing f w u with
  | zero => simp [contentRun] at h
  | succ fuel ih =>
    rw [contentRun] at h
    obtain ⟨D, hc1, hc2⟩ := hi.cur
    cases h1 : f.addDelayed exec fuel 0 w with
    | error e => rw [h1] at h; cases h
    | ok q =>
      obtain ⟨a1, f1, w1⟩ := q
      rw [h1] at h
      simp only at h
      obtain ⟨u1, D1, g1, g2, g3, g4, g5, g6, g7⟩ := addDelayed_inv H fuel (X := []) (Y := D) (by simpa using hc1) (by simp) (by simpa using hc2) h1
      rw [List.append_assoc] at g2
      have hi1 : RootInv rest atoms els t0 f1 w1 (u ++ u1) :=
        ⟨by rw [g4.sectionIndex, g4.sectionDelayed]; exact hi.sec, ⟨D1, g2, g3⟩, by rw [g6]; exact hi.same, by rw [g1, hi.parts, List.map_append],
          by rw [g4.partsIndex]; exact hi.zero, by rw [g4.partialMemory]; exact hi.mem⟩
      rcases g7 with rfl | ⟨rfl, g7⟩
      · -- no more room
        generalize h2 : answerAct .next [f1] w1 = r at h
        obtain ⟨a2, s2, w2⟩ := r
        rcases hi1.next h2 with ⟨rfl, f2, u2, rfl, hi2⟩ | ⟨rfl, f2, rfl, hi2⟩
        · exact ih hi2 h
        · simp only [Except.ok.injEq, Prod.mk.injEq] at h
          obtain ⟨rfl, rfl, rfl⟩ := h
          exact ⟨f2, _, rfl, Or.inl ⟨rfl, hi2⟩⟩
      · rw [show answerAct .cont [f1] w1 = (.cont, [f1], w1) from rfl] at h
        simp only at h
        cases h2 : contentElements exec fuel [f1] w1 with
        | error e => rw [h2] at h; cases h
        | ok q =>
          obtain ⟨a2, s2, w2⟩ := q
          rw [h2] at h
          simp only at h
          obtain ⟨u2, D2, f2, rfl, k1, k2, k3, k4, k5, k6⟩ := elements_inv H hflat fuel g2 g7 g3 hi1.same h2
          rw [List.append_assoc] at k2
          have hi2 : RootInv rest atoms els t0 f2 w2 (u ++ u1 ++ u2) :=
            ⟨by rw [k4.sectionIndex, k4.sectionDelayed]; exact hi1.sec, ⟨D2, k2, k3⟩, k5, by rw [k1, hi1.parts, ← List.map_append],
              by rw [k4.partsIndex]; exact hi1.zero, by rw [k4.partialMemory]; exact hi1.mem⟩
          rcases k6 with rfl | ⟨rfl, k6⟩
          · generalize h3 : answerAct .next [f2] w2 = r at h
            obtain ⟨a3, s3, w3⟩ := r
            rcases hi2.next h3 with ⟨rfl, f3, u3, rfl, hi3⟩ | ⟨rfl, f3, rfl, hi3⟩
            · exact ih hi3 h
            · simp only [Except.ok.injEq, Prod.mk.injEq] at h
              obtain ⟨rfl, rfl, rfl⟩ := h
              exact ⟨f3, _, rfl, Or.inl ⟨rfl, hi3⟩⟩
          · rw [show answerAct .cont [f2] w2 = (.cont, [f2], w2) from rfl] at h
            simp only at h
            by_cases hdl : f2.delayed = []
            · rw [if_neg (by simpa using hdl)] at h
              by_cases hcol : ¬ f2.resetting = true ∧ f2.cols > 1
              · rw [if_pos hcol] at h
                simp only [lastOfResetting, Bool.false_eq_true, if_false, startResetting, if_true] at h
                have hi2' : RootInv rest atoms els t0 { f2 with willReset := true } w2 (u ++ u1 ++ u2) :=
                  ⟨hi2.sec, hi2.cur, hi2.same, hi2.parts, hi2.zero, hi2.mem⟩
                rcases hi2'.reset with ⟨r1, r2⟩ | ⟨r1, r2, r3⟩
                · exact ih r2 h
                · rw [r3] at h
                  exact ih hi2' h
              · rw [if_neg hcol] at h
                by_cases hre : f2.resetting = true
                · rw [if_pos hre] at h
                  have hi2' : RootInv rest atoms els t0 { f2 with forward := false } w2 (u ++ u1 ++ u2) :=
                    ⟨hi2.sec, hi2.cur, hi2.same, hi2.parts, hi2.zero, hi2.mem⟩
                  rcases hi2'.reset with ⟨r1, r2⟩ | ⟨r1, r2, r3⟩
                  · rw [if_pos r1] at h
                    exact ih r2 h
                  · rw [r3] at h
                    simp only [Bool.false_eq_true, if_false, Except.ok.injEq, Prod.mk.injEq] at h
                    obtain ⟨rfl, rfl, rfl⟩ := h
                    exact ⟨_, _, rfl, Or.inr ⟨rfl, hi2', k6, hdl⟩⟩
                · rw [if_neg hre] at h
                  simp only [Except.ok.injEq, Prod.mk.injEq] at h
                  obtain ⟨rfl, rfl, rfl⟩ := h
                  exact ⟨_, _, rfl, Or.inr ⟨rfl, hi2, k6, hdl⟩⟩
            · rw [if_pos (by simpa using hdl)] at h
              exact ih hi2 h

/-- with everything shown, each element was shown completely -/
theorem WaitInv.complete {els : List (CEl σ)} {idx : Nat} {t : List (Nat × CAtom A)} (hi : WaitInv rest els idx [] t) (hidx : els.length ≤ idx) (j : Nat) :
    ofElement t j = atomsAt rest els j := by
  have := hi.eq j
  by_cases h : idx ≤ j
  · rw [if_pos h] at this
    have h0 : atomsAt rest els j = [] := by
      unfold atomsAt
      rw [List.getElem?_eq_none (by omega)]
      rfl
    rw [h0] at this ⊢
    simpa using this
  · rw [if_neg h] at this
    simpa [waiting] using this

theorem WaitInv.some {els : List (CEl σ)} {idx : Nat} {D : List (Nat × CEl σ)} {t : List (Nat × CAtom A)} (hi : WaitInv rest els idx D t) (j : Nat) :
    ofElement t j <+: atomsAt rest els j := ⟨_, hi.eq j⟩

theorem WaitInv.settled {els : List (CEl σ)} {idx : Nat} {D : List (Nat × CEl σ)} {t : List (Nat × CAtom A)} (hi : WaitInv rest els idx D t) : BoxSettled rest els t := by
  intro a ha i hia hf
  have h := hi.eq i
  have hlt := hi.labels a ha
  rw [if_neg (by omega), waiting_nil D i, List.append_nil] at h
  · exact h
  · intro p hp hpi
    have := hi.wait p hp (by rw [hpi]; exact hf) a ha
    omega

/-- between two rectangles -/
structure OpenInv (rest : σ → List A) (els : List (CEl σ)) (t : List (Nat × CAtom A)) (s : CContent σ P B C) : Prop where
  elements : s.elements = els
  box : (s.box = none ∧ t = []) ∨ ∃ f, s.box = some f ∧ SameEls rest els f.elements ∧ f.partialMemory = none ∧
    ∃ D, WaitInv rest els f.sectionIndex D t ∧ f.sectionDelayed = D.map Prod.snd

theorem content_run (H : Honest exec atoms rest) {els : List (CEl σ)} (hflat : ∀ e ∈ els, Spec.flat e = true) {fuel : Nat} {s s' : CContent σ P B C}
    {t : List (Nat × CAtom A)} (hi : OpenInv rest els t s) (hf : s.finished = false) {x y w h : Rat} (hr : s.run exec fuel x y w h = .ok s') :
    ∃ u, s'.out.parts.flatMap (boxAtoms atoms) = u.map Prod.snd ∧
      (s'.finished = false ∧ OpenInv rest els (t ++ u) s' ∨
        s'.finished = true ∧ DocOrder els (t ++ u) ∧ ∀ j, ofElement (t ++ u) j = atomsAt rest els j) := by
  unfold CContent.run at hr
  split at hr
  · cases hr
  · simp only at hr
    generalize hf0 : (s.box.getD (CBox.blank s.cols s.gap s.elements true)).setup x w y (y - h) 0 = f at hr
    have hi0 : RootInv rest atoms els t f (⟨[], [], []⟩ : COut P B C) [] := by
      rcases hi.box with ⟨hb, rfl⟩ | ⟨f0, hb, b1, b2, D, b3, b4⟩
      · rw [hb] at hf0
        rw [← hf0]
        refine ⟨⟨[], WaitInv.new els, rfl⟩, ⟨[], WaitInv.new els, rfl⟩, ?_, rfl, rfl, rfl⟩
        show SameEls rest els s.elements
        rw [hi.elements]
        rfl
      · rw [hb] at hf0
        rw [← hf0]
        exact ⟨⟨D, b3, b4⟩, ⟨D, by rw [List.append_nil]; exact b3, b4⟩, b1, rfl, rfl, b2⟩
    cases h1 : contentRun exec fuel [f] (⟨[], [], []⟩ : COut P B C) with
    | error e => rw [h1] at hr; cases hr
    | ok q =>
      obtain ⟨act, stk, w1⟩ := q
      rw [h1] at hr
      obtain ⟨f1, u, rfl, hend⟩ := root_run H hflat fuel hi0 h1
      simp only [Except.ok.injEq] at hr
      subst hr
      rcases hend with ⟨rfl, e⟩ | ⟨rfl, e, e1, e2⟩
      · exact ⟨u, e.parts, Or.inl ⟨by simp [hf], hi.elements, Or.inr ⟨f1, rfl, e.same, e.mem, e.sec⟩⟩⟩
      · obtain ⟨D, d1, d2⟩ := e.cur
        rw [e2] at d2
        have hD : D = [] := by simpa using d2.symm
        subst hD
        exact ⟨u, e.parts, Or.inr ⟨by simp, d1.order, d1.complete e1⟩⟩

/-- C35 (partial): a content box, of any number of columns, over any rectangles. The parts come from the elements (`t` says which): each gives its own atoms in order and
none twice, all of them when the box is finished, and in document order, but for images that flow: when something is shown, all that comes before it has been shown
completely. Partial because the elements are paragraphs, tables and images: nested
boxes may be repeated (`C35_nested_repeated_false`) and groups lose text (C38). -/
theorem C35_content_partial (exec : σ → Rat → Rat → Rat → Rat → Except PyErr (CellOut σ P B C)) (atoms : P → List A) (rest : σ → List A)
    (H : Honest exec atoms rest) (cols : Nat) (gap : Option Rat) (els : List (CEl σ)) (hflat : ∀ e ∈ els, Spec.flat e = true) (fuel : Nat)
    (rects : List (Rat × Rat × Rat × Rat)) (ps : List (CPart P)) (s : CContent σ P B C)
    (hr : (CContent.new cols gap els).runs exec fuel rects = .ok (ps, s)) :
    ∃ t : List (Nat × CAtom A), t.map Prod.snd = ps.flatMap (boxAtoms atoms) ∧ DocOrder els t ∧
      (∀ i, ofElement t i <+: atomsAt rest els i) ∧ (s.finished = true → ∀ i, ofElement t i = atomsAt rest els i) ∧ BoxSettled rest els t := by
  have key : ∀ (rects : List (Rat × Rat × Rat × Rat)) (s0 s : CContent σ P B C) (t : List (Nat × CAtom A)) (ps : List (CPart P)),
      s0.finished = false → OpenInv rest els t s0 → s0.runs exec fuel rects = .ok (ps, s) →
      ∃ u, u.map Prod.snd = ps.flatMap (boxAtoms atoms) ∧ DocOrder els (t ++ u) ∧ (∀ i, ofElement (t ++ u) i <+: atomsAt rest els i) ∧
        (s.finished = true → ∀ i, ofElement (t ++ u) i = atomsAt rest els i) ∧ BoxSettled rest els (t ++ u) := by
    intro rects
    induction rects with
    | nil =>
      intro s0 s t ps hf hi h
      cases h
      have hd : ∃ idx D, WaitInv rest els idx D t := by
        rcases hi.box with ⟨-, rfl⟩ | ⟨f, -, -, -, D, h1, -⟩
        · exact ⟨0, [], WaitInv.new els⟩
        · exact ⟨_, D, h1⟩
      obtain ⟨idx, D, hd⟩ := hd
      exact ⟨[], rfl, by simpa using hd.order, by simpa using hd.some, by rw [hf]; simp, by simpa using hd.settled⟩
    | cons r rects ih =>
      obtain ⟨x, y, w, h⟩ := r
      intro s0 s t ps hf hi hr
      simp only [CContent.runs, hf, Bool.false_eq_true, if_false] at hr
      cases h1 : s0.run exec fuel x y w h with
      | error e => rw [h1] at hr; cases hr
      | ok s1 =>
        rw [h1] at hr
        simp only at hr
        cases h2 : s1.runs exec fuel rects with
        | error e => rw [h2] at hr; cases hr
        | ok q =>
          obtain ⟨ps2, s2⟩ := q
          rw [h2] at hr
          simp only [Except.ok.injEq, Prod.mk.injEq] at hr
          obtain ⟨rfl, rfl⟩ := hr
          obtain ⟨u, k1, k2⟩ := content_run H hflat hi hf h1
          rcases k2 with ⟨k2, k3⟩ | ⟨k2, k3, k4⟩
          · obtain ⟨u2, j1, j2, j3, j4⟩ := ih s1 s2 (t ++ u) ps2 k2 k3 h2
            rw [List.append_assoc] at j2 j3 j4
            exact ⟨u ++ u2, by rw [List.map_append, j1, List.flatMap_append, k1], j2, j3, j4⟩
          · have : ps2 = [] ∧ s2 = s1 := by
              cases rects with
              | nil => cases h2; exact ⟨rfl, rfl⟩
              | cons r l =>
                obtain ⟨x, y, w, h⟩ := r
                simp only [CContent.runs, k2, if_true, Except.ok.injEq, Prod.mk.injEq] at h2
                exact ⟨h2.1.symm, h2.2.symm⟩
            obtain ⟨rfl, rfl⟩ := this
            exact ⟨u, by rw [List.append_nil, k1], k3, fun i => (k4 i) ▸ List.prefix_rfl, fun _ => k4, fun _ _ i _ _ => k4 i⟩
  obtain ⟨u, h1, h2, h3, h4⟩ := key rects _ s [] ps rfl ⟨rfl, Or.inl ⟨rfl, rfl⟩⟩ hr
  exact ⟨u, h1, h2, h3, h4⟩

/-- C37 (partial): after a box was laid out in one rectangle, whatever the number of attempts, its parts show each element once: nothing of the abandoned attempts
is among them. Partial because the lines and fills of tables remain (`C37_lines_remain_false`), and for the elements of C35. -/
theorem C37_parts_partial (exec : σ → Rat → Rat → Rat → Rat → Except PyErr (CellOut σ P B C)) (atoms : P → List A) (rest : σ → List A)
    (H : Honest exec atoms rest) (cols : Nat) (gap : Option Rat) (els : List (CEl σ)) (hflat : ∀ e ∈ els, Spec.flat e = true) (fuel : Nat)
    (x y w h : Rat) (s : CContent σ P B C) (hr : (CContent.new cols gap els).run exec fuel x y w h = .ok s) (hf : s.finished = true) :
    ∃ t : List (Nat × CAtom A), t.map Prod.snd = s.out.parts.flatMap (boxAtoms atoms) ∧ DocOrder els t ∧ ∀ i, ofElement t i = atomsAt rest els i := by
  obtain ⟨u, h1, h2⟩ := content_run H hflat (t := []) ⟨rfl, Or.inl ⟨rfl, rfl⟩⟩ rfl hr
  rcases h2 with ⟨h2, -⟩ | ⟨-, h3, h4⟩
  · rw [hf] at h2; cases h2
  · exact ⟨u, h1.symm, h3, h4⟩

end

/-! ### Examples and counterexamples -/

def contStyle : CStyle := ⟨0, 5, 0, 0, none, false, .flow⟩

/-- the parts, rectangle by rectangle, until the box is finished -/
def contentPages (exec : Str → Rat → Rat → Rat → Rat → Except PyErr (CellOut Str Str Unit Unit)) (cols : Nat) (els : List (CEl Str)) :
    List Rat → CRun (List (List (CPart Str)) × CContent Str Str Unit Unit) := fun heights =>
  let rec go : List Rat → CContent Str Str Unit Unit → CRun (List (List (CPart Str)) × CContent Str Str Unit Unit)
    | [], s => .ok ([], s)
    | h :: l, s =>
      if s.finished then .ok ([], s)
      else match s.run exec 100 0 h 100 h with
        | .error e => .error e
        | .ok s => match go l s with
          | .error e => .error e
          | .ok (p, s') => .ok (s.out.parts :: p, s')
  go heights (CContent.new cols none els)

def contentShown (cols : Nat) (els : List (CEl Str)) (heights : List Rat) : CRun (List (List (CPart Str)) × Bool) :=
  (contentPages linesExec cols els heights).map fun r => (r.1, r.2.finished)

/-- two paragraphs over three pages -/
example : contentShown 1 [.leaf c!"abcd" contStyle, .leaf c!"xyz" contStyle] [35, 35, 40] =
    .ok ([[.leaf c!"abc"], [.leaf c!"d", .leaf c!"xy"], [.leaf c!"z"]], true) := by decide +kernel

/-- an image that does not fit on the first page is overtaken by the text after it -/
example : contentShown 1 [.leaf c!"uv" contStyle, .image ⟨7, 100, 60, 0, contStyle⟩, .leaf c!"abc" contStyle] [50, 140] =
    .ok ([[.leaf c!"uv", .leaf c!"ab"], [.image 7 0 80 100 60, .leaf c!"c"]], true) := by decide +kernel

/-- with place `normal` it is not -/
example : contentShown 1 [.leaf c!"uv" contStyle, .image ⟨7, 100, 60, 0, { contStyle with place := .normal }⟩, .leaf c!"abc" contStyle] [50, 140] =
    .ok ([[.leaf c!"uv"], [.image 7 0 80 100 60, .leaf c!"abc"]], true) := by decide +kernel

/-- two columns, balanced: the attempts before leave no text -/
example : contentShown 2 [.leaf c!"abcd" contStyle, .leaf c!"xyz" contStyle] [135] = .ok ([[.leaf c!"abcd", .leaf c!"", .leaf c!"xyz"]], true) := by decide +kernel

/-- C35 fails for nested boxes: if an image that was delayed before a box, the last element, finds no room for a second time, what the box has already shown is forgotten and
it starts again -/
theorem C35_nested_repeated_false :
    contentShown 1 [.image ⟨7, 100, 60, 0, contStyle⟩, .child 1 none [.leaf c!"abcdefgh" contStyle] contStyle] [40, 40, 150] =
      .ok ([[.leaf c!"abcd"], [], [.image 7 0 90 100 60, .leaf c!"abcdefgh"]], true) := by decide +kernel

/-- a table that draws one line with each row of text -/
def ruledExec (c : Str) (x y w h : Rat) : Except PyErr (CellOut Str Str Unit Unit) :=
  (linesExec c x y w h).map fun o => { o with lines := [⟨x, y, x + w, some y, 1, ()⟩] }

/-- C37 fails for the lines of tables: a table of one row in two columns, drawn with one line, is tried ten times, and all the
lines remain -/
theorem C37_lines_remain_false :
    (contentPages ruledExec 2 [.leaf c!"a" contStyle] [100]).map (fun r => (r.1, r.2.finished, r.2.out.lines.length)) = .ok ([[.leaf c!"a"]], true, 10) := by
  decide +kernel

end Verif
