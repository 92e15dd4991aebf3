import Verif.Lemmas.FootPage
import Verif.Spec.FootPage
import Verif.Spec.Footnotes
import Mathlib.Tactic.Linarith
/-! The marks of a box of one column in a lower and in a higher rectangle. -/
namespace Verif
open Spec

variable {σ P B C κ : Type}

theorem marksOn_append (l l' : List NPart) : marksOn (l ++ l') = marksOn l ++ marksOn l' := by
  induction l with
  | nil => rfl
  | cons p l ih => cases p <;> simp [marksOn, ih]

/-- the marks of what was drawn -/
def COut.marks (ids : P → NPart) (w : COut P B C) : List Str := marksOn (w.parts.map (boxPartIds ids))

theorem COut.marks_add (ids : P → NPart) (w : COut P B C) (o : CellOut σ P B C) : (w.add o).marks ids = w.marks ids ++ marksOn (o.parts.map ids) := by
  have : (o.parts.map CPart.leaf).map (boxPartIds ids) = o.parts.map ids := by rw [List.map_map]; rfl
  simp only [COut.marks, COut.add, List.map_append, marksOn_append, this]

/-- a box of one column with paragraphs and tables only -/
def CBox.OneCol (f : CBox σ) : Prop :=
  f.cols = 1 ∧ f.column = 0 ∧ f.resetting = false ∧ (∀ e ∈ f.elements, e.IsLeaf) ∧ ∀ e ∈ f.delayed, e.IsLeaf

/-- the same box in a lower rectangle -/
def CBox.Lower (f g : CBox σ) : Prop := ∃ b, f.maxY ≤ b ∧ g = { f with maxY := b }

theorem descend_oneCol {f : CBox σ} (h : f.OneCol) (st : CStyle) (b : Bool) : (f.descend st b).OneCol := by
  unfold CBox.descend; split <;> exact h

theorem took_oneCol {f : CBox σ} (h : f.OneCol) (y k : Rat) (st : CStyle) : (f.took y k st).OneCol := by
  unfold CBox.took; split <;> exact h

theorem descend_lower {f g : CBox σ} (h : f.Lower g) (st : CStyle) (b : Bool) : (f.descend st b).Lower (g.descend st b) := by
  obtain ⟨c, h1, rfl⟩ := h
  unfold CBox.descend
  by_cases hs : f.starting = true <;> simp only [hs] <;> exact ⟨c, h1, by simp [hs]⟩

theorem took_lower {f g : CBox σ} (h : f.Lower g) (y k : Rat) (st : CStyle) : (f.took y k st).Lower (g.took y k st) := by
  obtain ⟨c, h1, rfl⟩ := h
  unfold CBox.took
  split <;> exact ⟨c, h1, rfl⟩

/-- what a paragraph or table does to a box of one column -/
theorem process_oneCol {exec : σ → Rat → Rat → Rat → Rat → Except PyErr (CellOut σ P B C)} {f : CBox σ} (h : f.OneCol) {w : COut P B C} {c : σ} {st : CStyle} {a : CAns σ} {e' : CEl σ} {f' : CBox σ}
    {w' : COut P B C} (hp : f.process exec w (.leaf c st) = .ok (a, e', f', w')) :
    ∃ o, exec c ((f.descend st true).elX st) (f.descend st true).y ((f.descend st true).elWidth st) (f.descend st true).room = .ok o ∧ e' = .leaf c st ∧ w' = w.add o ∧
      f' = (f.descend st true).took f.y o.height st ∧ f'.OneCol ∧ f'.elements = f.elements ∧ f'.index = f.index ∧ f'.delayed = f.delayed ∧
      a = (if o.finished then ⟨none, false, false⟩ else ⟨some (.leaf o.next st), true, false⟩) := by
  have hk : ∀ k, ((f.descend st true).took f.y k st).elements = f.elements ∧ ((f.descend st true).took f.y k st).index = f.index ∧ ((f.descend st true).took f.y k st).delayed = f.delayed := by
    intro k; unfold CBox.took CBox.descend; split_ifs <;> exact ⟨rfl, rfl, rfl⟩
  simp only [CBox.process, CBox.leaf] at hp
  cases hx : exec c ((f.descend st true).elX st) (f.descend st true).y ((f.descend st true).elWidth st) (f.descend st true).room with
  | error e => rw [hx] at hp; cases hp
  | ok o =>
    rw [hx] at hp
    have hg := took_oneCol (descend_oneCol h st true) f.y o.height st
    obtain ⟨k1, k2, k3⟩ := hk o.height
    by_cases hf : o.finished = true
    · simp only [hf, if_true] at hp
      cases hp
      exact ⟨o, rfl, rfl, rfl, rfl, hg, k1, k2, k3, by simp [hf]⟩
    · simp only [hf] at hp
      cases hp
      exact ⟨o, rfl, rfl, rfl, rfl, hg, k1, k2, k3, by simp [hf]⟩

theorem room_lower {f g : CBox σ} (h : f.Lower g) : g.room ≤ f.room := by
  obtain ⟨c, h1, rfl⟩ := h
  unfold CBox.room
  exact max_le_max (le_refl _) (by simp only; linarith)

section
variable {exec exec' : σ → Rat → Rat → Rat → Rat → Except PyErr (CellOut σ P B C)} {ids : P → NPart}

/-- what is asked of paragraphs and tables, for two functions -/
def ShrinkTo (exec exec' : σ → Rat → Rat → Rat → Rat → Except PyErr (CellOut σ P B C)) (ids : P → NPart) : Prop :=
  ∀ s x y w h h' o o', h' ≤ h → exec s x y w h = .ok o → exec' s x y w h' = .ok o' →
    marksOn (o'.parts.map ids) <+: marksOn (o.parts.map ids) ∧
    (o'.finished = true → o.finished = true ∧ o'.height = o.height ∧ marksOn (o'.parts.map ids) = marksOn (o.parts.map ids))

theorem process_lower (hs : ShrinkTo exec exec' ids) {f g : CBox σ} (h : f.OneCol) (hl : f.Lower g) {w v : COut P B C} (hm : v.marks ids = w.marks ids) {c : σ} {st : CStyle}
    {a b : CAns σ} {e1 e2 : CEl σ} {f' g' : CBox σ} {w' v' : COut P B C} (hp : f.process exec w (.leaf c st) = .ok (a, e1, f', w')) (hq : g.process exec' v (.leaf c st) = .ok (b, e2, g', v')) :
    v'.marks ids <+: w'.marks ids ∧ (b.next = false → a.next = false ∧ a.delayed = none ∧ b.delayed = none ∧ f'.Lower g' ∧ v'.marks ids = w'.marks ids) := by
  have hg : g.OneCol := by obtain ⟨c, -, rfl⟩ := hl; exact h
  obtain ⟨o, x1, -, rfl, rfl, -, -, -, -, rfl⟩ := process_oneCol h hp
  obtain ⟨o', x2, -, rfl, rfl, -, -, -, -, rfl⟩ := process_oneCol hg hq
  have hd := descend_lower hl st true
  have hr := room_lower hd
  have hy : g.y = f.y := by obtain ⟨c, -, rfl⟩ := hl; rfl
  have e1 : (g.descend st true).elX st = (f.descend st true).elX st := by obtain ⟨c, -, hc⟩ := hd; rw [hc]; rfl
  have e2 : (g.descend st true).y = (f.descend st true).y := by obtain ⟨c, -, hc⟩ := hd; rw [hc]
  have e3 : (g.descend st true).elWidth st = (f.descend st true).elWidth st := by obtain ⟨c, -, hc⟩ := hd; rw [hc]; rfl
  rw [e1, e2, e3] at x2
  obtain ⟨k1, k2⟩ := hs _ _ _ _ _ _ _ _ hr x1 x2
  rw [COut.marks_add, COut.marks_add, hm]
  refine ⟨List.prefix_append_right_inj _ |>.2 k1, fun hb => ?_⟩
  have hfin : o'.finished = true := by
    by_contra hn
    simp [hn] at hb
  obtain ⟨k3, k4, k5⟩ := k2 hfin
  simp only [hfin, k3, if_true, k5, and_true, true_and]
  rw [hy, k4]
  exact took_lower hd _ _ _

/-- the delayed elements add marks, and go on only if there are none left -/
theorem addDelayed_grows (fuel : Nat) : ∀ (f : CBox σ) (w : COut P B C), f.OneCol → ∀ {a : CAct} {f' : CBox σ} {w' : COut P B C}, f.addDelayed exec fuel 0 w = .ok (a, f', w') →
    w.marks ids <+: w'.marks ids ∧ f'.OneCol ∧ (a = .next ∨ (a = .cont ∧ f'.delayed = [])) := by
  induction fuel with
  | zero => intro f w _ a f' w' h; unfold CBox.addDelayed at h; cases h
  | succ n ih =>
    intro f w hf a f' w' h
    unfold CBox.addDelayed at h
    cases hd : f.delayed with
    | nil =>
      simp only [hd, List.getElem?_nil, ne_eq, not_true_eq_false, false_and, if_false] at h
      cases h
      exact ⟨List.prefix_refl _, hf, .inr ⟨rfl, hd⟩⟩
    | cons e l =>
      have he : e.IsLeaf := hf.2.2.2.2 e (by rw [hd]; simp)
      simp only [hd, List.getElem?_cons_zero] at h
      cases e with
      | leaf c st =>
        cases hx : f.process exec w (.leaf c st) with
        | error e => rw [hx] at h; cases h
        | ok r =>
          obtain ⟨b, e1, f1, w1⟩ := r
          rw [hx] at h
          obtain ⟨o, -, -, rfl, -, h1, -, -, h2, rfl⟩ := process_oneCol hf hx
          simp only at h
          rw [h2, hd] at h
          have hl : ∀ e ∈ l, e.IsLeaf := fun e he => hf.2.2.2.2 e (by rw [hd]; simp [he])
          by_cases ho : o.finished = true
          · simp only [ho, if_true, replaceAt, List.eraseIdx_cons_zero] at h
            have hone : ({ f1 with delayed := l } : CBox σ).OneCol := ⟨h1.1, h1.2.1, h1.2.2.1, h1.2.2.2.1, hl⟩
            obtain ⟨k1, k2, k3⟩ := ih _ _ hone (by simpa using h)
            rw [COut.marks_add] at k1
            exact ⟨(List.prefix_append _ _).trans k1, k2, k3⟩
          · simp only [ho, if_true, replaceAt, List.set_cons_zero] at h
            cases h
            rw [COut.marks_add]
            refine ⟨List.prefix_append _ _, ⟨h1.1, h1.2.1, h1.2.2.1, h1.2.2.2.1, ?_⟩, .inl rfl⟩
            intro e he
            rcases List.mem_cons.1 he with rfl | he
            · trivial
            · exact hl e he
      | image i => exact absurd he id
      | group l t st => exact absurd he id
      | child c gp l st => exact absurd he id

theorem addDelayed_lower (hs : ShrinkTo exec exec' ids) (fuel : Nat) : ∀ (f g : CBox σ) (w v : COut P B C), f.OneCol → f.Lower g → v.marks ids = w.marks ids →
    ∀ {a b : CAct} {f' g' : CBox σ} {w' v' : COut P B C}, f.addDelayed exec fuel 0 w = .ok (a, f', w') → g.addDelayed exec' fuel 0 v = .ok (b, g', v') →
    v'.marks ids <+: w'.marks ids ∧ (b = .cont → a = .cont ∧ f'.Lower g' ∧ v'.marks ids = w'.marks ids) := by
  induction fuel with
  | zero => intro f g w v _ _ _ a b f' g' w' v' h; unfold CBox.addDelayed at h; cases h
  | succ n ih =>
    intro f g w v hf hl hm a b f' g' w' v' h h'
    have hgd : g.delayed = f.delayed := by obtain ⟨c, -, rfl⟩ := hl; rfl
    have hg : g.OneCol := by obtain ⟨c, -, rfl⟩ := hl; exact hf
    unfold CBox.addDelayed at h h'
    cases hd : f.delayed with
    | nil =>
      simp only [hgd, hd, List.getElem?_nil, ne_eq, not_true_eq_false, false_and, if_false] at h h'
      cases h; cases h'
      exact ⟨by rw [hm]; exact List.prefix_refl _, fun _ => ⟨rfl, hl, hm⟩⟩
    | cons e l =>
      have he : e.IsLeaf := hf.2.2.2.2 e (by rw [hd]; simp)
      simp only [hgd, hd, List.getElem?_cons_zero] at h h'
      cases e with
      | leaf c st =>
        cases hx : f.process exec w (.leaf c st) with
        | error e => rw [hx] at h; cases h
        | ok r =>
        cases hx' : g.process exec' v (.leaf c st) with
        | error e => rw [hx'] at h'; cases h'
        | ok r' =>
          obtain ⟨p, e1, f1, w1⟩ := r
          obtain ⟨q, e2, g1, v1⟩ := r'
          rw [hx] at h
          rw [hx'] at h'
          obtain ⟨k1, k2⟩ := process_lower hs hf hl hm hx hx'
          obtain ⟨o, -, -, -, -, h1, -, -, h2, hp⟩ := process_oneCol hf hx
          obtain ⟨o', -, -, -, -, -, -, -, h3, hq⟩ := process_oneCol hg hx'
          simp only at h h'
          rw [h2, hd] at h
          rw [h3, hgd, hd] at h'
          have hlate : ∀ e ∈ l, e.IsLeaf := fun e he => hf.2.2.2.2 e (by rw [hd]; simp [he])
          have hone : ({ f1 with delayed := l } : CBox σ).OneCol := ⟨h1.1, h1.2.1, h1.2.2.1, h1.2.2.2.1, hlate⟩
          by_cases hn : q.next = true
          · rw [if_pos hn] at h'
            cases h'
            refine ⟨?_, by intro hb; cases hb⟩
            by_cases hn' : p.next = true
            · rw [if_pos hn'] at h
              cases h
              exact k1
            · rw [if_neg hn'] at h
              have hpd : p.delayed = none ∧ p.flow = false := by
                rw [hp] at hn' ⊢
                by_cases ho : o.finished = true
                · simp [ho]
                · simp [ho] at hn'
              rw [hpd.1, hpd.2] at h
              exact k1.trans (addDelayed_grows n _ _ hone (by simpa [replaceAt] using h)).1
          · obtain ⟨m1, m2, m3, m4, m5⟩ := k2 (by simpa using hn)
            have hqf : q.flow = false := by rw [hq]; split <;> rfl
            have hpf : p.flow = false := by rw [hp]; split <;> rfl
            rw [if_neg hn, hqf, m3] at h'
            rw [if_neg (by simp [m1]), hpf, m2] at h
            simp only [Bool.false_eq_true, if_false, replaceAt, List.eraseIdx_cons_zero] at h h'
            obtain ⟨t, t1, rfl⟩ := m4
            exact ih _ _ _ _ hone ⟨t, t1, rfl⟩ m5 h h'
      | image i => exact absurd he id
      | group l t st => exact absurd he id
      | child c gp l st => exact absurd he id

/-- the elements of a box of one column add marks -/
theorem elements_grow (fuel : Nat) : ∀ (f : CBox σ) (w : COut P B C), f.OneCol → f.delayed = [] → ∀ {a : CAct} {stk : List (CBox σ)} {w' : COut P B C},
    contentElements exec fuel [f] w = .ok (a, stk, w') → w.marks ids <+: w'.marks ids ∧ ∃ f', stk = [f'] ∧ f'.OneCol ∧ (a = .next ∨ (a = .cont ∧ f'.delayed = [])) := by
  induction fuel with
  | zero => intro f w _ _ a stk w' h; unfold contentElements at h; cases h
  | succ n ih =>
    intro f w hf hd a stk w' h
    unfold contentElements at h
    cases he : f.elements[f.index]? with
    | none => rw [he] at h; cases h; exact ⟨List.prefix_refl _, f, rfl, hf, .inr ⟨rfl, hd⟩⟩
    | some e =>
      have hmem := List.mem_of_getElem? he
      have hleaf := hf.2.2.2.1 e hmem
      rw [he] at h
      cases e with
      | leaf c st =>
        simp only at h
        cases hx : f.process exec w (.leaf c st) with
        | error e => rw [hx] at h; cases h
        | ok r =>
          obtain ⟨p, e1, f1, w1⟩ := r
          rw [hx] at h
          obtain ⟨o, -, rfl, rfl, -, h1, h2, h3, h4, rfl⟩ := process_oneCol hf hx
          have hset : ∀ e ∈ f1.elements.set f1.index (.leaf c st), e.IsLeaf := by
            intro e he
            rcases List.mem_or_eq_of_mem_set he with he | rfl
            · exact h1.2.2.2.1 e he
            · trivial
          by_cases ho : o.finished = true
          · simp only [ho, if_true, Option.toList_none, List.append_nil, h4, hd, Bool.false_eq_true, if_false] at h
            have hone : ({ f1 with elements := f1.elements.set f1.index (.leaf c st), index := f1.index + 1, delayed := [] } : CBox σ).OneCol := ⟨h1.1, h1.2.1, h1.2.2.1, hset, by simp⟩
            obtain ⟨k1, k2⟩ := ih _ _ hone rfl h
            rw [COut.marks_add] at k1
            exact ⟨(List.prefix_append _ _).trans k1, k2⟩
          · simp only [ho, Bool.false_eq_true, if_false, if_true, h4, hd, Option.toList_some, List.nil_append] at h
            cases h
            rw [COut.marks_add]
            exact ⟨List.prefix_append _ _, _, rfl, ⟨h1.1, h1.2.1, h1.2.2.1, hset, by intro e he; rw [List.mem_singleton.1 he]; trivial⟩, .inl rfl⟩
      | image i => exact absurd hleaf id
      | group l t st => exact absurd hleaf id
      | child c gp l st => exact absurd hleaf id

theorem elements_lower (hs : ShrinkTo exec exec' ids) (fuel : Nat) : ∀ (f g : CBox σ) (w v : COut P B C), f.OneCol → f.delayed = [] → f.Lower g → v.marks ids = w.marks ids →
    ∀ {a b : CAct} {stk stk' : List (CBox σ)} {w' v' : COut P B C}, contentElements exec fuel [f] w = .ok (a, stk, w') → contentElements exec' fuel [g] v = .ok (b, stk', v') →
    v'.marks ids <+: w'.marks ids := by
  induction fuel with
  | zero => intro f g w v _ _ _ _ a b stk stk' w' v' h; unfold contentElements at h; cases h
  | succ n ih =>
    intro f g w v hf hd hl hm a b stk stk' w' v' h h'
    have hge : g.elements = f.elements ∧ g.index = f.index ∧ g.delayed = f.delayed := by obtain ⟨c, -, rfl⟩ := hl; exact ⟨rfl, rfl, rfl⟩
    have hg : g.OneCol := by obtain ⟨c, -, rfl⟩ := hl; exact hf
    unfold contentElements at h h'
    rw [hge.1, hge.2.1] at h'
    cases he : f.elements[f.index]? with
    | none => rw [he] at h h'; cases h; cases h'; rw [hm]; exact List.prefix_refl _
    | some e =>
      have hmem := List.mem_of_getElem? he
      have hleaf := hf.2.2.2.1 e hmem
      rw [he] at h h'
      cases e with
      | leaf c st =>
        simp only at h h'
        cases hx : f.process exec w (.leaf c st) with
        | error e => rw [hx] at h; cases h
        | ok r =>
        cases hx' : g.process exec' v (.leaf c st) with
        | error e => rw [hx'] at h'; cases h'
        | ok r' =>
          obtain ⟨p, e1, f1, w1⟩ := r
          obtain ⟨q, e2, g1, v1⟩ := r'
          rw [hx] at h
          rw [hx'] at h'
          obtain ⟨k1, k2⟩ := process_lower hs hf hl hm hx hx'
          obtain ⟨o, -, e1eq, -, -, h1, h2, h3, h4, hp⟩ := process_oneCol hf hx
          obtain ⟨o', -, e2eq, -, -, -, h5, h6, h7, hq⟩ := process_oneCol hg hx'
          subst e1eq e2eq
          have hset : ∀ e ∈ f1.elements.set f1.index (.leaf c st), e.IsLeaf := by
            intro e he
            rcases List.mem_or_eq_of_mem_set he with he | rfl
            · exact h1.2.2.2.1 e he
            · trivial
          have hone : ({ f1 with elements := f1.elements.set f1.index (.leaf c st), index := f1.index + 1, delayed := [] } : CBox σ).OneCol := ⟨h1.1, h1.2.1, h1.2.2.1, hset, by simp⟩
          simp only at h h'
          by_cases hn : q.next = true
          · rw [if_pos hn] at h'
            cases h'
            by_cases hn' : p.next = true
            · rw [if_pos hn'] at h
              cases h
              exact k1
            · rw [if_neg hn'] at h
              have hpd : p.delayed = none := by
                rw [hp] at hn' ⊢
                by_cases ho : o.finished = true
                · simp [ho]
                · simp [ho] at hn'
              simp only [hpd, h4, hd, Option.toList_none, List.append_nil] at h
              exact k1.trans (elements_grow n _ _ hone rfl h).1
          · obtain ⟨m1, m2, m3, m4, m5⟩ := k2 (by simpa using hn)
            rw [if_neg hn] at h'
            rw [if_neg (by simp [m1])] at h
            simp only [m2, h4, hd, Option.toList_none, List.append_nil] at h
            simp only [m3, h7, hge.2.2, hd, Option.toList_none, List.append_nil] at h'
            obtain ⟨t, t1, rfl⟩ := m4
            exact ih _ _ _ _ hone rfl ⟨t, t1, rfl⟩ m5 h h'
      | image i => exact absurd hleaf id
      | group l t st => exact absurd hleaf id
      | child c gp l st => exact absurd hleaf id

/-- a run of a box of one column: the delayed elements, and the others if there is room -/
theorem run_oneCol (ids : P → NPart) (fuel : Nat) (f : CBox σ) (w : COut P B C) (hf : f.OneCol) {a : CAct} {stk : List (CBox σ)} {w' : COut P B C} (h : contentRun exec (fuel + 1) [f] w = .ok (a, stk, w')) :
    ∃ a1 f1 w1, f.addDelayed exec fuel 0 w = .ok (a1, f1, w1) ∧
      ((a1 = .next ∧ w' = w1) ∨ (a1 = .cont ∧ f1.OneCol ∧ f1.delayed = [] ∧ ∃ a2 stk2, contentElements exec fuel [f1] w1 = .ok (a2, stk2, w'))) := by
  unfold contentRun at h
  cases hx : f.addDelayed exec fuel 0 w with
  | error e => rw [hx] at h; cases h
  | ok r =>
    obtain ⟨a1, f1, w1⟩ := r
    rw [hx] at h
    obtain ⟨-, h1, h2⟩ := addDelayed_grows (ids := ids) fuel f w hf hx
    refine ⟨a1, f1, w1, rfl, ?_⟩
    have hcol : f1.column + 1 = f1.cols := by rw [h1.1, h1.2.1]
    rcases h2 with rfl | ⟨rfl, h2⟩
    · simp only [answerAct, nextSection, hcol, h1.2.2.1, if_true] at h
      simp at h
      exact .inl ⟨rfl, h.2.2.symm⟩
    · refine .inr ⟨rfl, h1, h2, ?_⟩
      simp only [answerAct] at h
      cases hy : contentElements exec fuel [f1] w1 with
      | error e => rw [hy] at h; cases h
      | ok r =>
        obtain ⟨a2, stk2, w2⟩ := r
        rw [hy] at h
        obtain ⟨-, f2, rfl, h3, h4⟩ := elements_grow (ids := ids) fuel f1 w1 h1 h2 hy
        have hcol2 : f2.column + 1 = f2.cols := by rw [h3.1, h3.2.1]
        rcases h4 with rfl | ⟨rfl, h4⟩
        · simp only [answerAct, nextSection, hcol2, h3.2.2.1, if_true] at h
          simp at h
          rw [← h.2.2]
          exact ⟨_, _, rfl⟩
        · simp only [answerAct, h4, h3.1, h3.2.2.1] at h
          simp at h
          rw [← h.2.2]
          exact ⟨_, _, rfl⟩

theorem run_lower (hs : ShrinkTo exec exec' ids) (fuel : Nat) (f g : CBox σ) (w : COut P B C) (hf : f.OneCol) (hl : f.Lower g) {a b : CAct} {stk stk' : List (CBox σ)} {w' v' : COut P B C}
    (h : contentRun exec fuel [f] w = .ok (a, stk, w')) (h' : contentRun exec' fuel [g] w = .ok (b, stk', v')) : v'.marks ids <+: w'.marks ids := by
  cases fuel with
  | zero => unfold contentRun at h; cases h
  | succ n =>
    have hg : g.OneCol := by obtain ⟨c, -, rfl⟩ := hl; exact hf
    obtain ⟨a1, f1, w1, h1, h2⟩ := run_oneCol ids n f w hf h
    obtain ⟨b1, g1, v1, k1, k2⟩ := run_oneCol ids n g w hg h'
    obtain ⟨d1, d2⟩ := addDelayed_lower hs n f g w w hf hl rfl h1 k1
    rcases k2 with ⟨rfl, rfl⟩ | ⟨rfl, -, -, b2, stk2, k2⟩
    · rcases h2 with ⟨rfl, rfl⟩ | ⟨rfl, o1, o2, a2, stk3, h2⟩
      · exact d1
      · exact d1.trans (elements_grow n f1 w1 o1 o2 h2).1
    · obtain ⟨e1, e2, e3⟩ := d2 rfl
      rcases h2 with ⟨h2, -⟩ | ⟨-, o1, o2, a2, stk3, h2⟩
      · rw [e1] at h2; cases h2
      · exact elements_lower hs n f1 g1 w1 v1 o1 o2 e2 e3 h2 k2

/-- in a lower rectangle a section of one column shows the first of its marks -/
theorem content_lower (hs : ShrinkTo exec exec' ids) {s s1 s2 : CContent σ P B C} (hleaf : s.LeavesOnly) (hone : s.cols = 1) (fuel : Nat) {x y w h h' : Rat} (hh : h' ≤ h)
    (hr : s.run exec fuel x y w h = .ok s1) (hr' : s.run exec' fuel x y w h' = .ok s2) : s2.out.marks ids <+: s1.out.marks ids := by
  have h0 : ((s.box.getD (CBox.blank s.cols s.gap s.elements true)).setup x w y (y - h) 0).OneCol := by
    cases hb : s.box with
    | none => exact ⟨hone, rfl, rfl, hleaf.1, by simp [CBox.setup, CBox.blank]⟩
    | some f =>
      obtain ⟨⟨k1, k2, -⟩, k3⟩ := hleaf.2 f hb
      exact ⟨k2.trans hone, rfl, rfl, by simp only [Option.getD_some, CBox.setup, k1]; exact hleaf.1, k3⟩
  have hl : ((s.box.getD (CBox.blank s.cols s.gap s.elements true)).setup x w y (y - h) 0).Lower ((s.box.getD (CBox.blank s.cols s.gap s.elements true)).setup x w y (y - h') 0) :=
    ⟨y - h', by simp only [CBox.setup]; linarith, rfl⟩
  unfold CContent.run at hr hr'
  simp only [hone, Nat.one_ne_zero, if_false] at hr hr' h0 hl
  split at hr
  · cases hr
  · rename_i a f1 l1 w1 h1
    cases hr
    split at hr'
    · cases hr'
    · rename_i b f2 l2 w2 h2
      cases hr'
      exact run_lower hs fuel _ _ _ h0 hl h1 h2
    · cases hr'
  · cases hr

end

end Verif
