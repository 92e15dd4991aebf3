import Verif.Lemmas.ContentCong
import Verif.Spec.Nest
import Mathlib.Tactic.Positivity
/-! A content box of one column that takes no height shows nothing. -/
namespace Verif
open Spec

variable {σ P B C A : Type}

def ElsTidy (Ws : List Rat) (l : List (CEl σ)) : Prop := ∀ e ∈ l, ElTidy Ws e

/-- a box of one column that is not balanced -/
structure BoxTidy (Ws : List Rat) (f : CBox σ) : Prop where
  elements : ElsTidy Ws f.elements
  delayed : ElsTidy Ws f.delayed
  section_ : ElsTidy Ws f.sectionDelayed
  width : f.colWidth ∈ Ws
  bottom : 0 ≤ f.lastBottom
  cols : f.cols = 1
  column : f.column = 0
  calm : f.resetting = false

/-- from `f` to `f'` the box went down if anything was shown -/
structure WentDown (atoms : P → List A) (f f' : CBox σ) (w w' : COut P B C) : Prop where
  minY : f'.minY = f.minY
  down : f'.y ≤ f.y
  parts : ∃ u, w'.parts = w.parts ++ u ∧ (f.y ≤ f'.y → u.flatMap (boxAtoms atoms) = [])

theorem WentDown.refl (atoms : P → List A) (f : CBox σ) (w : COut P B C) : WentDown atoms f f w w :=
  ⟨rfl, le_refl _, [], by simp, fun _ => rfl⟩

theorem WentDown.trans {atoms : P → List A} {f g k : CBox σ} {w w' w'' : COut P B C} (a : WentDown atoms f g w w') (b : WentDown atoms g k w' w'') :
    WentDown atoms f k w w'' := by
  obtain ⟨u, u1, u2⟩ := a.parts
  obtain ⟨v, v1, v2⟩ := b.parts
  refine ⟨b.minY.trans a.minY, le_trans b.down a.down, u ++ v, by rw [v1, u1, List.append_assoc], fun h => ?_⟩
  rw [List.flatMap_append, u2 (le_trans h b.down), v2 (le_trans a.down h)]
  rfl

section
variable {Ws : List Rat} {exec : σ → Rat → Rat → Rat → Rat → Except PyErr (CellOut σ P B C)} {atoms : P → List A}

theorem descend_down {f : CBox σ} {st : CStyle} (b : Bool) (h1 : 0 ≤ f.lastBottom) (h2 : 0 ≤ st.top) : (f.descend st b).y ≤ f.y := by
  unfold CBox.descend
  split
  · exact le_refl _
  · show f.y - (if b then st.top else 0) - f.lastBottom ≤ f.y
    cases b
    · simp only [Bool.false_eq_true, if_false]; linarith
    · simp only [if_true]; linarith

theorem descend_bottom (f : CBox σ) (st : CStyle) (b : Bool) : (f.descend st b).lastBottom = f.lastBottom := by
  unfold CBox.descend
  split <;> rfl

theorem image_fit_height {i : CImg} {x width room x' width' height' : Rat} (h1 : 0 < i.width) (h2 : 0 < i.height)
    (h3 : ∀ m, i.style.minHeight = some m → 0 < m) (hw : 0 < width) (h : i.fit x width room = some (x', width', height')) : 0 < height' := by
  unfold CImg.fit at h
  simp only at h
  split at h
  · cases h
    positivity
  · split at h
    · cases h
    · rename_i m hm
      split at h
      · rename_i hle
        cases h
        have := h3 m hm
        split
        · exact this
        · exact lt_of_lt_of_le this hle
      · cases h

theorem process_zero (hz : ∀ c x y w h o, exec c x y w h = .ok o → o.height ≤ 0 → o.parts.flatMap atoms = []) {f f' : CBox σ} {w w' : COut P B C}
    {e e' : CEl σ} {a : CAns σ} (hf : BoxTidy Ws f) (he : ElTidy Ws e) (h : f.process exec w e = .ok (a, e', f', w')) :
    ElTidy Ws e' ∧ (∀ d, a.delayed = some d → ElTidy Ws d) ∧ BoxFrame f f' ∧ 0 ≤ f'.lastBottom ∧ WentDown atoms f f' w w' := by
  unfold CBox.process at h
  cases e with
  | leaf c st =>
    simp only at h
    cases h1 : f.leaf exec w c st true true with
    | error e => rw [h1] at h; cases h
    | ok q =>
      obtain ⟨r, f1, w1⟩ := q
      rw [h1] at h
      have hfr := leaf_frame h1
      have key : 0 ≤ f1.lastBottom ∧ WentDown atoms f f1 w w1 := by
        unfold CBox.leaf at h1
        simp only at h1
        split at h1
        · cases h1
        · rename_i o ho
          simp only [if_true, Except.ok.injEq, Prod.mk.injEq] at h1
          obtain ⟨-, rfl, rfl⟩ := h1
          have hd := descend_down (f := f) (st := st) true hf.bottom he.1
          unfold CBox.took
          split
          · rename_i hpos
            refine ⟨he.2, (descend_frame f st true).minY, by show (f.descend st true).y - o.height ≤ f.y; linarith, _, rfl, fun hle => ?_⟩
            exfalso
            have hle' : f.y ≤ (f.descend st true).y - o.height := hle
            linarith
          · rename_i hn
            refine ⟨by show 0 ≤ (f.descend st true).lastBottom; rw [descend_bottom]; exact hf.bottom, (descend_frame f st true).minY, le_refl _, _, rfl, fun _ => ?_⟩
            have := hz _ _ _ _ _ _ ho (not_lt.1 hn)
            simp only [List.flatMap_map, boxAtoms]
            rw [← List.map_flatMap, this]
            rfl
      cases r with
      | none =>
        simp only [Except.ok.injEq, Prod.mk.injEq] at h
        obtain ⟨rfl, rfl, rfl, rfl⟩ := h
        exact ⟨he, by simp, hfr, key⟩
      | some c' =>
        simp only [Except.ok.injEq, Prod.mk.injEq] at h
        obtain ⟨rfl, rfl, rfl, rfl⟩ := h
        exact ⟨he, by rintro d ⟨⟩; exact he, hfr, key⟩
  | image i =>
    simp only at h
    cases h1 : f.image w i true true with
    | error e => rw [h1] at h; cases h
    | ok q =>
      obtain ⟨r, f1, w1⟩ := q
      rw [h1] at h
      have hfr := image_frame h1
      obtain ⟨⟨e1, e2⟩, e3, e4, e5, e6⟩ := he
      have hd := descend_down (f := f) (st := i.style) true hf.bottom e1
      have key : (0 ≤ f1.lastBottom ∧ WentDown atoms f f1 w w1) ∧ ∀ i', r = some i' → i' = { i with tries := i.tries + 1 } := by
        unfold CBox.image at h1
        simp only at h1
        split at h1
        · cases h1
        · split at h1
          · rename_i x wd ht hfit
            simp only [if_true, Except.ok.injEq, Prod.mk.injEq] at h1
            obtain ⟨rfl, rfl, rfl⟩ := h1
            have hpos := image_fit_height e3 e4 e5 (by
              unfold CBox.elWidth
              rw [descend_width]
              exact e6 _ hf.width) hfit
            refine ⟨⟨e2, hfr.minY, by show (f.descend i.style true).y - ht ≤ f.y; linarith, _, rfl, fun hle => ?_⟩, by simp⟩
            exfalso
            have hle' : f.y ≤ (f.descend i.style true).y - ht := hle
            linarith
          · split at h1
            · cases h1
            · simp only [Except.ok.injEq, Prod.mk.injEq] at h1
              obtain ⟨rfl, rfl, rfl⟩ := h1
              refine ⟨⟨by show 0 ≤ (f.descend i.style true).lastBottom; rw [descend_bottom]; exact hf.bottom, hfr.minY, le_refl _, [], by simp, fun _ => rfl⟩, ?_⟩
              intro i' hi
              cases hi
              rfl
      cases r with
      | none =>
        simp only [Except.ok.injEq, Prod.mk.injEq] at h
        obtain ⟨rfl, rfl, rfl, rfl⟩ := h
        exact ⟨⟨⟨e1, e2⟩, e3, e4, e5, e6⟩, by simp, hfr, key.1⟩
      | some i' =>
        simp only [Except.ok.injEq, Prod.mk.injEq] at h
        obtain ⟨rfl, rfl, rfl, rfl⟩ := h
        rw [key.2 i' rfl]
        exact ⟨⟨⟨e1, e2⟩, e3, e4, e5, e6⟩, by rintro d ⟨⟩; exact ⟨⟨e1, e2⟩, e3, e4, e5, e6⟩, hfr, key.1⟩
  | group l t st => exact he.elim
  | child => exact he.elim

theorem elTidy_flat {e : CEl σ} (h : ElTidy Ws e) : Spec.flat e = true := by
  cases e with
  | leaf c st => rfl
  | image i => rfl
  | group l t st => exact h.elim
  | child => exact h.elim

theorem addDelayed_zero (hz : ∀ c x y w h o, exec c x y w h = .ok o → o.height ≤ 0 → o.parts.flatMap atoms = []) (fuel : Nat) {m : Nat} {f f' : CBox σ}
    {w w' : COut P B C} {act : CAct} (hf : BoxTidy Ws f) (h : f.addDelayed exec fuel m w = .ok (act, f', w')) :
    BoxTidy Ws f' ∧ WentDown atoms f f' w w' ∧ (act = .next ∨ act = .cont) := by
  induction fuel generalizing m f w with
  | zero => cases h
  | succ fuel ih =>
    simp only [CBox.addDelayed] at h
    cases hd : f.delayed[m]? with
    | none =>
      rw [hd] at h
      simp only [Except.ok.injEq, Prod.mk.injEq] at h
      obtain ⟨ha, rfl, rfl⟩ := h
      refine ⟨hf, WentDown.refl _ _ _, ?_⟩
      rw [← ha]
      split <;> simp
    | some e =>
      rw [hd] at h
      simp only at h
      cases h1 : f.process exec w e with
      | error e => rw [h1] at h; cases h
      | ok q =>
        obtain ⟨a, e', f1, w1⟩ := q
        rw [h1] at h
        obtain ⟨q1, q2, q3, q4, q5⟩ := process_zero hz hf (hf.delayed e (List.mem_of_getElem? hd)) h1
        have hf1 : BoxTidy Ws { f1 with delayed := replaceAt f1.delayed m a.delayed } := by
          refine ⟨?_, ?_, ?_, ?_, q4, q3.cols.trans hf.cols, q3.column.trans hf.column, q3.resetting.trans hf.calm⟩
          · show ElsTidy Ws f1.elements
            rw [q3.elements]; exact hf.elements
          · intro x hx
            rcases mem_replaceAt hx with h | h
            · rw [q3.delayed] at h
              exact hf.delayed x h
            · exact q2 x h
          · show ElsTidy Ws f1.sectionDelayed
            rw [q3.sectionDelayed]; exact hf.section_
          · show f1.colWidth ∈ Ws
            rw [q3.colWidth]; exact hf.width
        have hw1 : WentDown atoms f { f1 with delayed := replaceAt f1.delayed m a.delayed } w w1 := ⟨q5.minY, q5.down, q5.parts⟩
        simp only at h
        split at h
        · simp only [Except.ok.injEq, Prod.mk.injEq] at h
          obtain ⟨rfl, rfl, rfl⟩ := h
          exact ⟨hf1, hw1, Or.inl rfl⟩
        · obtain ⟨b1, b2, b3⟩ := ih hf1 h
          exact ⟨b1, hw1.trans b2, b3⟩

theorem contentElements_zero (hz : ∀ c x y w h o, exec c x y w h = .ok o → o.height ≤ 0 → o.parts.flatMap atoms = []) (fuel : Nat) {f : CBox σ}
    {w w' : COut P B C} {act : CAct} {stk : List (CBox σ)} (hf : BoxTidy Ws f) (h : contentElements exec fuel [f] w = .ok (act, stk, w')) :
    ∃ f', stk = [f'] ∧ BoxTidy Ws f' ∧ WentDown atoms f f' w w' ∧ (act = .next ∨ act = .cont) := by
  induction fuel generalizing f w with
  | zero => simp [contentElements] at h
  | succ fuel ih =>
    cases he : f.elements[f.index]? with
    | none =>
      rw [contentElements, he] at h
      simp only [Except.ok.injEq, Prod.mk.injEq] at h
      obtain ⟨rfl, rfl, rfl⟩ := h
      exact ⟨f, rfl, hf, WentDown.refl _ _ _, Or.inr rfl⟩
    | some e =>
      have hfe := hf.elements e (List.mem_of_getElem? he)
      rw [contentElements_flat exec fuel f [] w he (elTidy_flat hfe)] at h
      cases h1 : f.process exec w e with
      | error e => rw [h1] at h; cases h
      | ok q =>
        obtain ⟨a, e', f1, w1⟩ := q
        rw [h1] at h
        obtain ⟨q1, q2, q3, q4, q5⟩ := process_zero hz hf hfe h1
        have hf1 : BoxTidy Ws (f1.after a e') := by
          refine ⟨?_, ?_, ?_, ?_, q4, q3.cols.trans hf.cols, q3.column.trans hf.column, q3.resetting.trans hf.calm⟩
          · intro x hx
            rcases List.mem_or_eq_of_mem_set hx with h | h
            · rw [q3.elements] at h
              exact hf.elements x h
            · rw [h]; exact q1
          · intro x hx
            have hx : x ∈ f1.delayed ++ a.delayed.toList := hx
            rw [List.mem_append, Option.mem_toList] at hx
            rcases hx with h | h
            · rw [q3.delayed] at h
              exact hf.delayed x h
            · exact q2 x h
          · show ElsTidy Ws f1.sectionDelayed
            rw [q3.sectionDelayed]; exact hf.section_
          · show f1.colWidth ∈ Ws
            rw [q3.colWidth]; exact hf.width
        have hw1 : WentDown atoms f (f1.after a e') w w1 := ⟨q5.minY, q5.down, q5.parts⟩
        simp only at h
        split at h
        · simp only [Except.ok.injEq, Prod.mk.injEq] at h
          obtain ⟨rfl, rfl, rfl⟩ := h
          exact ⟨_, rfl, hf1, hw1, Or.inl rfl⟩
        · obtain ⟨f', b0, b1, b2, b3⟩ := ih hf1 h
          exact ⟨f', b0, b1, hw1.trans b2, b3⟩

theorem next_stop {f : CBox σ} (hf : BoxTidy Ws f) (w : COut P B C) :
    answerAct .next [f] w = (.interrupt, [{ f with sectionIndex := f.index, sectionDelayed := f.delayed, childrenMemory := [] }], w) := by
  simp only [answerAct, nextSection]
  rw [if_pos (by rw [hf.column, hf.cols]), if_neg (by rw [hf.calm]; simp)]
  rfl

theorem contentRun_zero (hz : ∀ c x y w h o, exec c x y w h = .ok o → o.height ≤ 0 → o.parts.flatMap atoms = []) (fuel : Nat) {f : CBox σ}
    {w w' : COut P B C} {act : CAct} {stk : List (CBox σ)} (hf : BoxTidy Ws f) (h : contentRun exec fuel [f] w = .ok (act, stk, w')) :
    ∃ f', stk = [f'] ∧ BoxTidy Ws f' ∧ WentDown atoms f f' w w' := by
  induction fuel generalizing f w with
  | zero => simp [contentRun] at h
  | succ fuel ih =>
    rw [contentRun_succ] at h
    cases h1 : f.addDelayed exec fuel 0 w with
    | error e => rw [h1] at h; cases h
    | ok q =>
      obtain ⟨a, f1, w1⟩ := q
      rw [h1] at h
      simp only at h
      obtain ⟨hf1, hw1, hact⟩ := addDelayed_zero hz fuel hf h1
      have stopped : ∀ (g : CBox σ) (v : COut P B C), BoxTidy Ws g → WentDown atoms f g w v →
          BoxTidy Ws { g with sectionIndex := g.index, sectionDelayed := g.delayed, childrenMemory := [] } ∧
          WentDown atoms f { g with sectionIndex := g.index, sectionDelayed := g.delayed, childrenMemory := [] } w v :=
        fun g v hg hv => ⟨⟨hg.elements, hg.delayed, hg.delayed, hg.width, hg.bottom, hg.cols, hg.column, hg.calm⟩, hv.minY, hv.down, hv.parts⟩
      rcases hact with rfl | rfl
      · rw [next_stop hf1] at h
        simp only [afterDelayed, Except.ok.injEq, Prod.mk.injEq] at h
        obtain ⟨-, rfl, rfl⟩ := h
        exact ⟨_, rfl, stopped f1 w1 hf1 hw1⟩
      · rw [show answerAct .cont [f1] w1 = (.cont, [f1], w1) from rfl] at h
        simp only [afterDelayed] at h
        cases h2 : contentElements exec fuel [f1] w1 with
        | error e => rw [h2] at h; cases h
        | ok q =>
          obtain ⟨a2, s2, w2⟩ := q
          rw [h2] at h
          simp only at h
          obtain ⟨f2, rfl, hf2, hw2, hact2⟩ := contentElements_zero hz fuel hf1 h2
          have hw2' := hw1.trans hw2
          rcases hact2 with rfl | rfl
          · rw [next_stop hf2] at h
            simp only [afterElements, Except.ok.injEq, Prod.mk.injEq] at h
            obtain ⟨-, rfl, rfl⟩ := h
            exact ⟨_, rfl, stopped f2 w2 hf2 hw2'⟩
          · rw [show answerAct .cont [f2] w2 = (.cont, [f2], w2) from rfl] at h
            simp only [afterElements] at h
            split at h
            · obtain ⟨f3, b0, b1, b2⟩ := ih hf2 h
              exact ⟨f3, b0, b1, hw2'.trans b2⟩
            · rw [if_neg (by rw [hf2.cols]; simp), if_neg (by rw [hf2.calm]; simp)] at h
              simp only [Except.ok.injEq, Prod.mk.injEq] at h
              obtain ⟨-, rfl, rfl⟩ := h
              exact ⟨_, rfl, hf2, hw2'⟩

/-- a content box of one column between two runs -/
structure ContentTidy (Ws : List Rat) (s : CContent σ P B C) : Prop where
  cols : s.cols = 1
  elements : ElsTidy Ws s.elements
  box : ∀ f, s.box = some f → ElsTidy Ws f.elements ∧ ElsTidy Ws f.sectionDelayed ∧ f.cols = 1

theorem contentBox_run_zero (hz : ∀ c x y w h o, exec c x y w h = .ok o → o.height ≤ 0 → o.parts.flatMap atoms = []) {fuel : Nat} {s s' : CContent σ P B C}
    {x y w h : Rat} (hs : ContentTidy Ws s) (hW : w ∈ Ws) (hr : s.run exec fuel x y w h = .ok s') :
    ContentTidy Ws s' ∧ (s'.currentHeight ≤ 0 → s'.out.parts.flatMap (boxAtoms atoms) = []) := by
  unfold CContent.run at hr
  split at hr
  · cases hr
  · simp only at hr
    generalize hf0 : (s.box.getD (CBox.blank s.cols s.gap s.elements true)).setup x w y (y - h) 0 = f at hr
    have one : ∀ g : Rat, (w - g * (((1 : Nat) : Rat) - 1)) / ((1 : Nat) : Rat) = w := by intro g; norm_num
    have hf : BoxTidy Ws f ∧ f.y = f.minY := by
      rw [← hf0]
      cases hb : s.box with
      | none =>
        refine ⟨⟨hs.elements, by simp [ElsTidy, CBox.setup, CBox.blank], by simp [ElsTidy, CBox.setup, CBox.blank], ?_, le_refl _, hs.cols, rfl, rfl⟩, rfl⟩
        show (w - _ * ((s.cols : Rat) - 1)) / s.cols ∈ Ws
        rw [hs.cols, one]
        exact hW
      | some b =>
        obtain ⟨b1, b2, b3⟩ := hs.box b hb
        refine ⟨⟨b1, b2, b2, ?_, le_refl _, b3, rfl, rfl⟩, rfl⟩
        show (w - _ * ((b.cols : Rat) - 1)) / b.cols ∈ Ws
        rw [b3, one]
        exact hW
    cases h1 : contentRun exec fuel [f] (⟨[], [], []⟩ : COut P B C) with
    | error e => rw [h1] at hr; cases hr
    | ok q =>
      obtain ⟨act, stk, w1⟩ := q
      rw [h1] at hr
      obtain ⟨f1, rfl, hf1, hw1⟩ := contentRun_zero hz fuel hf.1 h1
      simp only [Except.ok.injEq] at hr
      subst hr
      refine ⟨⟨hs.cols, hs.elements, fun g hg => by cases hg; exact ⟨hf1.elements, hf1.section_, hf1.cols⟩⟩, fun h0 => ?_⟩
      obtain ⟨u, u1, u2⟩ := hw1.parts
      have h0 : f1.minY - (if f1.cols > 1 then f1.maxY else f1.y) ≤ 0 := h0
      rw [hf1.cols, if_neg (by simp), hw1.minY, ← hf.2] at h0
      show w1.parts.flatMap _ = []
      rw [u1, List.nil_append]
      exact u2 (by linarith)

theorem contentBox_runs_tidy (hz : ∀ c x y w h o, exec c x y w h = .ok o → o.height ≤ 0 → o.parts.flatMap atoms = []) {fuel : Nat}
    (rects : List (Rat × Rat × Rat × Rat)) {s s' : CContent σ P B C} {ps : List (CPart P)} (hs : ContentTidy Ws s) (hW : ∀ r ∈ rects, r.2.2.1 ∈ Ws)
    (hr : s.runs exec fuel rects = .ok (ps, s')) : ContentTidy Ws s' := by
  induction rects generalizing s ps with
  | nil => cases hr; exact hs
  | cons r rects ih =>
    obtain ⟨x, y, w, h⟩ := r
    simp only [CContent.runs] at hr
    split at hr
    · cases hr; exact hs
    · cases h1 : s.run exec fuel x y w h with
      | error e => rw [h1] at hr; cases hr
      | ok s1 =>
        rw [h1] at hr
        simp only at hr
        cases h2 : s1.runs exec fuel rects with
        | error e => rw [h2] at hr; cases hr
        | ok q =>
          obtain ⟨ps2, s2⟩ := q
          rw [h2] at hr
          simp only [Except.ok.injEq, Prod.mk.injEq] at hr
          obtain ⟨-, rfl⟩ := hr
          exact ih (contentBox_run_zero hz hs (hW (x, y, w, h) (by simp)) h1).1 (fun r hr => hW r (by simp [hr])) h2

theorem contentBox_runs_snoc (exec : σ → Rat → Rat → Rat → Rat → Except PyErr (CellOut σ P B C)) (fuel : Nat) (rects : List (Rat × Rat × Rat × Rat)) (x y w h : Rat)
    (s : CContent σ P B C) :
    s.runs exec fuel (rects ++ [(x, y, w, h)]) = match s.runs exec fuel rects with
      | .error e => .error e
      | .ok (ps, s1) => if s1.finished then .ok (ps, s1) else match s1.run exec fuel x y w h with
        | .error e => .error e
        | .ok s2 => .ok (ps ++ s2.out.parts, s2) := by
  induction rects generalizing s with
  | nil =>
    simp only [List.nil_append, CContent.runs]
    split
    · rfl
    · cases s.run exec fuel x y w h with
      | error e => rfl
      | ok s2 => simp
  | cons r rects ih =>
    obtain ⟨x', y', w', h'⟩ := r
    simp only [List.cons_append, CContent.runs]
    by_cases hf : s.finished = true
    · simp [hf]
    · rw [if_neg hf, if_neg hf]
      cases s.run exec fuel x' y' w' h' with
      | error e => rfl
      | ok s1 =>
        simp only [ih]
        cases s1.runs exec fuel rects with
        | error e => rfl
        | ok q =>
          obtain ⟨ps, s2⟩ := q
          simp only
          by_cases hg : s2.finished = true
          · simp [hg]
          · simp only [hg, Bool.false_eq_true, if_false]
            cases s2.run exec fuel x y w h with
            | error e => rfl
            | ok s3 => simp

end
end Verif
