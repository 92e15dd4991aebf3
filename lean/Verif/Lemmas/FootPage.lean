import Verif.Model.FootPage
import Mathlib.Tactic.SplitIfs
/-! Lists of paragraphs, tables and images, that are run twice. -/
namespace Verif

variable {σ P B C κ : Type}

/-- a paragraph, a table, or an image that does not flow -/
def CEl.Simple : CEl σ → Prop
  | .leaf _ _ => True
  | .image i => i.style.place = .normal
  | _ => False

/-- what `setup` keeps -/
def CBox.Same (f g : CBox σ) : Prop :=
  f.elements = g.elements ∧ f.cols = g.cols ∧ f.gapOpt = g.gapOpt ∧ f.last = g.last ∧ f.sectionIndex = g.sectionIndex ∧ f.sectionDelayed = g.sectionDelayed ∧
    f.childrenMemory = g.childrenMemory ∧ f.partialMemory = g.partialMemory

theorem CBox.Same.setup {f g : CBox σ} (h : f.Same g) (a b c d : Rat) (n : Nat) : f.setup a b c d n = g.setup a b c d n := by
  obtain ⟨h1, h2, h3, h4, h5, h6, h7, h8⟩ := h
  unfold CBox.setup
  simp only [h1, h2, h3, h4, h5, h6, h7, h8]

/-- as `Same`, without delayed elements, in the last column -/
def CBox.Going (f g : CBox σ) : Prop := f.Same g ∧ f.delayed = [] ∧ f.column + 1 = f.cols ∧ f.resetting = false ∧ f.cols = 1

theorem descend_going {f g : CBox σ} (h : f.Going g) (st : CStyle) (b : Bool) : (f.descend st b).Going g := by
  unfold CBox.descend; split <;> exact h

theorem took_going {f g : CBox σ} (h : f.Going g) (y k : Rat) (st : CStyle) : (f.took y k st).Going g := by
  unfold CBox.took; split <;> exact h

/-- an element either goes on, or wants the next column -/
theorem process_going (exec : σ → Rat → Rat → Rat → Rat → Except PyErr (CellOut σ P B C)) {f g : CBox σ} (h : f.Going g) (w : COut P B C) (e : CEl σ) (he : e.Simple) {a : CAns σ} {e' : CEl σ}
    {f' : CBox σ} {w' : COut P B C} (hp : f.process exec w e = .ok (a, e', f', w')) :
    f'.column + 1 = f'.cols ∧ f'.resetting = false ∧ f'.index = f.index ∧ (a.next = true ∨ (a.delayed = none ∧ e' = e ∧ f'.Going g)) := by
  have idx : ∀ st b y k, ((f.descend st b).took y k st).index = f.index := by
    intro st b y k; unfold CBox.took CBox.descend; split_ifs <;> rfl
  cases e with
  | leaf c st =>
    simp only [CBox.process, CBox.leaf] at hp
    cases hx : exec c ((f.descend st true).elX st) (f.descend st true).y ((f.descend st true).elWidth st) (f.descend st true).room with
    | error e => rw [hx] at hp; cases hp
    | ok o =>
      rw [hx] at hp
      have hg := took_going (descend_going h st true) f.y o.height st
      by_cases hf : o.finished
      · simp only [hf, if_true] at hp
        cases hp
        exact ⟨hg.2.2.1, hg.2.2.2.1, idx _ _ _ _, .inr ⟨rfl, rfl, hg⟩⟩
      · simp only [hf] at hp
        cases hp
        exact ⟨hg.2.2.1, hg.2.2.2.1, idx _ _ _ _, .inl rfl⟩
  | image i =>
    have hi : i.style.place = .normal := he
    have hd : (f.descend i.style true).index = f.index := by unfold CBox.descend; split_ifs <;> rfl
    simp only [CBox.process, CBox.image] at hp
    have hg := descend_going h i.style true
    by_cases hw : i.width = 0
    · simp only [hw, if_true] at hp; cases hp
    · simp only [hw, if_false] at hp
      cases hx : i.fit ((f.descend i.style true).elX i.style) ((f.descend i.style true).elWidth i.style) (f.descend i.style true).room with
      | some r =>
        obtain ⟨x, width, height⟩ := r
        rw [hx] at hp
        cases hp
        exact ⟨hg.2.2.1, hg.2.2.2.1, hd, .inr ⟨rfl, rfl, hg⟩⟩
      | none =>
        rw [hx] at hp
        by_cases ht : i.tries ≥ 50
        · simp only [ht, if_true] at hp; cases hp
        · simp only [ht, if_false] at hp
          cases hp
          exact ⟨hg.2.2.1, hg.2.2.2.1, hd, .inl (by simp [hi])⟩
  | group l t st => exact absurd he id
  | child cols gap els st => exact absurd he id

/-- the elements of a list: either all of them found room, or the next column is wanted -/
theorem elements_going (exec : σ → Rat → Rat → Rat → Rat → Except PyErr (CellOut σ P B C)) (g : CBox σ) (hs : ∀ e ∈ g.elements, e.Simple) (fuel : Nat) :
    ∀ (f : CBox σ) (w : COut P B C), f.Going g → ∀ {a : CAct} {stk : List (CBox σ)} {w' : COut P B C}, contentElements exec fuel [f] w = .ok (a, stk, w') →
      ∃ f', stk = [f'] ∧ ((a = .next ∧ f'.column + 1 = f'.cols ∧ f'.resetting = false) ∨ (a = .cont ∧ f'.Going g)) := by
  induction fuel with
  | zero => intro f w _ a stk w' h; unfold contentElements at h; cases h
  | succ n ih =>
    intro f w hg a stk w' h
    unfold contentElements at h
    cases hx : f.elements[f.index]? with
    | none => rw [hx] at h; cases h; exact ⟨f, rfl, .inr ⟨rfl, hg⟩⟩
    | some e =>
      have hmem : e ∈ g.elements := by rw [← hg.1.1]; exact List.mem_of_getElem? hx
      have he := hs e hmem
      rw [hx] at h
      have key : ∀ (r : Except PyErr (CAns σ × CEl σ × CBox σ × COut P B C)), f.process exec w e = r →
          (match r with
            | .error e => (.error (some e) : CRun (CAct × List (CBox σ) × COut P B C))
            | .ok (a, e, f, w) =>
              if a.next then .ok (.next, [{ f with elements := f.elements.set f.index e, index := f.index + 1, delayed := f.delayed ++ a.delayed.toList }], w)
              else contentElements exec n [{ f with elements := f.elements.set f.index e, index := f.index + 1, delayed := f.delayed ++ a.delayed.toList }] w) = .ok (a, stk, w') →
          ∃ f', stk = [f'] ∧ ((a = .next ∧ f'.column + 1 = f'.cols ∧ f'.resetting = false) ∨ (a = .cont ∧ f'.Going g)) := by
        intro r hr h
        cases r with
        | error e => cases h
        | ok r =>
          obtain ⟨b, e', f1, w1⟩ := r
          obtain ⟨h1, h2, hidx, h3⟩ := process_going exec hg w e he hr
          simp only at h
          by_cases hb : b.next = true
          · rw [if_pos hb] at h
            cases h
            exact ⟨_, rfl, .inl ⟨rfl, h1, h2⟩⟩
          · rw [if_neg hb] at h
            rcases h3 with h3 | ⟨h3, h4, h5⟩
            · exact absurd h3 hb
            · refine ih _ _ ?_ h
              obtain ⟨⟨k1, k2⟩, k3, k4⟩ := h5
              refine ⟨⟨?_, k2⟩, ?_, k4⟩
              · show f1.elements.set f1.index e' = g.elements
                rw [k1, h4, hidx]
                rw [hg.1.1] at hx
                obtain ⟨hlt, hget⟩ := List.getElem?_eq_some_iff.1 hx
                rw [← hget]
                exact List.set_getElem_self hlt
              · show f1.delayed ++ b.delayed.toList = []
                rw [k3, h3]; rfl
      cases e with
      | leaf c st => exact key _ rfl h
      | image i => exact key _ rfl h
      | group l t st => exact absurd he id
      | child cols gap els st => exact absurd he id

/-- a list that was finished is as new -/
theorem run_going (exec : σ → Rat → Rat → Rat → Rat → Except PyErr (CellOut σ P B C)) (g : CBox σ) (hs : ∀ e ∈ g.elements, e.Simple) (fuel : Nat) (f : CBox σ) (w : COut P B C) (hg : f.Going g)
    {a : CAct} {stk : List (CBox σ)} {w' : COut P B C} (h : contentRun exec fuel [f] w = .ok (a, stk, w')) : a = .cont → ∃ f', stk = [f'] ∧ f'.Same g := by
  intro ha
  cases fuel with
  | zero => unfold contentRun at h; cases h
  | succ n =>
    unfold contentRun at h
    cases n with
    | zero => simp only [CBox.addDelayed] at h; cases h
    | succ n =>
      have hd := hg.2.1
      simp only [CBox.addDelayed, hd, List.getElem?_nil, ne_eq, not_true_eq_false, false_and, if_false, answerAct] at h
      cases hx : contentElements exec (n + 1) [f] w with
      | error e => rw [hx] at h; cases h
      | ok r =>
        obtain ⟨b, stk1, w1⟩ := r
        rw [hx] at h
        obtain ⟨f', rfl, h1⟩ := elements_going exec g hs _ f w hg hx
        rcases h1 with ⟨rfl, h2, h3⟩ | ⟨rfl, h2⟩
        · simp only [answerAct, nextSection, h2, h3, if_true] at h
          simp at h
          exact absurd (h.1.trans ha) (by decide)
        · have hc := h2.2.2.2.2
          have hr := h2.2.2.2.1
          simp only [answerAct, h2.2.1, hc, hr] at h
          simp at h
          exact ⟨f', h.2.1.symm, h2.1⟩

theorem blank_going (gap : Option Rat) (els : List (CEl σ)) (last : Bool) (a b c d : Rat) (n : Nat) : ((CBox.blank 1 gap els last).setup a b c d n).Going (CBox.blank 1 gap els last) :=
  ⟨⟨rfl, rfl, rfl, rfl, rfl, rfl, rfl, rfl⟩, rfl, rfl, rfl, rfl⟩

/-- a list that has found room is, when it is run again, as a new list in the new rectangle -/
theorem list_again (exec : σ → Rat → Rat → Rat → Rat → Except PyErr (CellOut σ P B C)) (exec' : σ → Rat → Rat → Rat → Rat → Except PyErr (CellOut σ P B C)) (fuel : Nat) (gap : Option Rat) (els : List (CEl σ))
    (hs : ∀ e ∈ els, e.Simple) (x y w h x' y' w' h' : Rat) {n : CContent σ P B C} (hr : (CContent.new 1 gap els).run exec fuel x y w h = .ok n) (hf : n.finished = true) {n' : CContent σ P B C}
    (hn : n.run exec' fuel x' y' w' h' = .ok n') :
    ∃ m : CContent σ P B C, (CContent.new 1 gap els).run exec' fuel x' y' w' h' = .ok m ∧ n'.out = m.out ∧ n'.currentHeight = m.currentHeight ∧ n'.box = m.box := by
  unfold CContent.run at hr
  rw [if_neg (show ¬ (CContent.new 1 gap els : CContent σ P B C).cols = 0 by simp [CContent.new])] at hr
  simp only [CContent.new, Option.getD_none] at hr
  cases hx : contentRun exec fuel [(CBox.blank 1 gap els true).setup x w y (y - h) 0] ⟨[], [], []⟩ with
  | error e => rw [hx] at hr; cases hr
  | ok r =>
    obtain ⟨a, stk, w1⟩ := r
    rw [hx] at hr
    cases stk with
    | nil => cases hr
    | cons f stk =>
      simp only at hr
      cases hr
      have ha : a = .cont := by simpa using hf
      obtain ⟨f', hf', hsame⟩ := run_going exec _ (by simpa [CBox.blank] using hs) fuel _ _ (blank_going gap els true x w y (y - h) 0) hx ha
      cases hf'
      unfold CContent.run at hn ⊢
      simp only [CContent.new, Option.getD_none, Option.getD_some] at hn ⊢
      rw [if_neg (by decide)] at hn
      simp only [Nat.one_ne_zero, if_false]
      rw [hsame.setup] at hn
      cases hy : contentRun exec' fuel [(CBox.blank 1 gap els true).setup x' w' y' (y' - h') 0] ⟨[], [], []⟩ with
      | error e => rw [hy] at hn; cases hn
      | ok r =>
        obtain ⟨b, stk2, w2⟩ := r
        rw [hy] at hn
        cases stk2 with
        | nil => cases hn
        | cons f2 stk2 =>
          simp only at hn ⊢
          cases hn
          exact ⟨_, rfl, rfl, rfl, rfl⟩

/-! ### boxes of paragraphs and tables, run from a state again -/

/-- a paragraph or table -/
def CEl.IsLeaf : CEl σ → Prop
  | .leaf _ _ => True
  | _ => False

/-- what a run keeps of a box, whatever happens -/
def CBox.Kept (f g : CBox σ) : Prop := f.elements = g.elements ∧ f.cols = g.cols ∧ f.gapOpt = g.gapOpt ∧ f.last = g.last ∧ f.partialMemory = g.partialMemory

theorem descend_kept {f g : CBox σ} (h : f.Kept g) (st : CStyle) (b : Bool) : (f.descend st b).Kept g := by
  unfold CBox.descend; split <;> exact h

theorem took_kept {f g : CBox σ} (h : f.Kept g) (y k : Rat) (st : CStyle) : (f.took y k st).Kept g := by
  unfold CBox.took; split <;> exact h

theorem leaf_kept {exec : σ → Rat → Rat → Rat → Rat → Except PyErr (CellOut σ P B C)} {f g : CBox σ} (h : f.Kept g) {w : COut P B C} {c : σ} {st : CStyle} {a b : Bool} {r : Option σ} {f' : CBox σ}
    {w' : COut P B C} (hp : f.leaf exec w c st a b = .ok (r, f', w')) : f'.Kept g ∧ f'.index = f.index := by
  unfold CBox.leaf at hp
  simp only at hp
  split at hp
  · cases hp
  · cases hp
    refine ⟨took_kept (descend_kept h st b) _ _ _, ?_⟩
    unfold CBox.took CBox.descend; split_ifs <;> rfl

/-- a leaf that is processed comes back as it was -/
theorem process_leaf_kept {exec : σ → Rat → Rat → Rat → Rat → Except PyErr (CellOut σ P B C)} {f g : CBox σ} (h : f.Kept g) {w : COut P B C} {e : CEl σ} (he : e.IsLeaf) {a : CAns σ} {e' : CEl σ}
    {f' : CBox σ} {w' : COut P B C} (hp : f.process exec w e = .ok (a, e', f', w')) : f'.Kept g ∧ f'.index = f.index ∧ e' = e ∧ ∀ d, a.delayed = some d → d.IsLeaf := by
  cases e with
  | leaf c st =>
    simp only [CBox.process] at hp
    split at hp
    · cases hp
    · rename_i hx; cases hp; obtain ⟨h1, h2⟩ := leaf_kept h hx; exact ⟨h1, h2, rfl, by simp⟩
    · rename_i hx; cases hp; obtain ⟨h1, h2⟩ := leaf_kept h hx; exact ⟨h1, h2, rfl, by rintro d ⟨⟩; trivial⟩
  | image i => exact absurd he id
  | group l t st => exact absurd he id
  | child c gp l st => exact absurd he id

/-- all that is delayed are leaves -/
def CBox.LeavesLate (f : CBox σ) : Prop := (∀ e ∈ f.delayed, e.IsLeaf) ∧ ∀ e ∈ f.sectionDelayed, e.IsLeaf

theorem leaf_late {exec : σ → Rat → Rat → Rat → Rat → Except PyErr (CellOut σ P B C)} {f : CBox σ} {w : COut P B C} {e : CEl σ} (he : e.IsLeaf) {a : CAns σ} {e' : CEl σ}
    {f' : CBox σ} {w' : COut P B C} (hp : f.process exec w e = .ok (a, e', f', w')) : f'.delayed = f.delayed ∧ f'.sectionDelayed = f.sectionDelayed := by
  have key : ∀ st b y k, ((f.descend st b).took y k st).delayed = f.delayed ∧ ((f.descend st b).took y k st).sectionDelayed = f.sectionDelayed := by
    intro st b y k; unfold CBox.took CBox.descend; split_ifs <;> exact ⟨rfl, rfl⟩
  cases e with
  | leaf c st =>
    simp only [CBox.process, CBox.leaf] at hp
    cases hx : exec c ((f.descend st true).elX st) (f.descend st true).y ((f.descend st true).elWidth st) (f.descend st true).room with
    | error e => rw [hx] at hp; cases hp
    | ok o =>
      rw [hx] at hp
      by_cases hf : o.finished
      · simp only [hf, if_true] at hp; cases hp; exact key _ _ _ _
      · simp only [hf] at hp; cases hp; exact key _ _ _ _
  | image i => exact absurd he id
  | group l t st => exact absurd he id
  | child c gp l st => exact absurd he id

theorem replaceAt_leaf {l : List (CEl σ)} (hl : ∀ e ∈ l, e.IsLeaf) (n : Nat) {o : Option (CEl σ)} (ho : ∀ d, o = some d → d.IsLeaf) : ∀ e ∈ replaceAt l n o, e.IsLeaf := by
  intro e he
  cases o with
  | none => exact hl e (List.mem_of_mem_eraseIdx he)
  | some d =>
    rcases List.mem_or_eq_of_mem_set he with h | rfl
    · exact hl e h
    · exact ho _ rfl

theorem addDelayed_kept {exec : σ → Rat → Rat → Rat → Rat → Except PyErr (CellOut σ P B C)} {g : CBox σ} (fuel : Nat) : ∀ (n : Nat) (f : CBox σ) (w : COut P B C), f.Kept g → f.LeavesLate →
    ∀ {a : CAct} {f' : CBox σ} {w' : COut P B C}, f.addDelayed exec fuel n w = .ok (a, f', w') → f'.Kept g ∧ f'.LeavesLate := by
  induction fuel with
  | zero => intro n f w _ _ a f' w' h; unfold CBox.addDelayed at h; cases h
  | succ k ih =>
    intro n f w hk hl a f' w' h
    unfold CBox.addDelayed at h
    cases hx : f.delayed[n]? with
    | none => rw [hx] at h; cases h; exact ⟨hk, hl⟩
    | some e =>
      rw [hx] at h
      have he := hl.1 e (List.mem_of_getElem? hx)
      simp only at h
      cases hp : f.process exec w e with
      | error e => rw [hp] at h; cases h
      | ok r =>
        obtain ⟨b, e', f1, w1⟩ := r
        rw [hp] at h
        obtain ⟨h1, -, -, h2⟩ := process_leaf_kept hk he hp
        obtain ⟨h3, h4⟩ := leaf_late he hp
        have hl' : CBox.LeavesLate { f1 with delayed := replaceAt f1.delayed n b.delayed } :=
          ⟨replaceAt_leaf (by rw [h3]; exact hl.1) n h2, by show ∀ e ∈ f1.sectionDelayed, e.IsLeaf; rw [h4]; exact hl.2⟩
        simp only at h
        split_ifs at h
        · cases h; exact ⟨h1, hl'⟩
        all_goals exact ih _ { f1 with delayed := replaceAt f1.delayed n b.delayed } _ h1 hl' h

theorem reset_kept {f g : CBox σ} (h : f.Kept g) (hl : f.LeavesLate) (w : COut P B C) : (f.reset w).2.1.Kept g ∧ (f.reset w).2.1.LeavesLate := by
  unfold CBox.reset
  split
  · exact ⟨h, hl⟩
  · simp only
    cases f.diff <;> exact ⟨h, hl.2, hl.2⟩

/-- one box, kept -/
def OneKept (g : CBox σ) (stk : List (CBox σ)) : Prop := ∃ f, stk = [f] ∧ f.Kept g ∧ f.LeavesLate

theorem breakAct_kept {f g : CBox σ} (h : f.Kept g) (hl : f.LeavesLate) (w : COut P B C) : OneKept g (breakAct f [] w).2.1 := by
  unfold breakAct
  split
  · exact ⟨_, rfl, (reset_kept h hl w).1, (reset_kept h hl w).2⟩
  · exact ⟨_, rfl, h, hl⟩

theorem nextSection_kept {f g : CBox σ} (h : f.Kept g) (hl : f.LeavesLate) (n : Nat) : OneKept g (nextSection n none [f]).2 := by
  unfold nextSection
  split
  · split
    · exact ⟨_, rfl, h, hl⟩
    · exact ⟨_, rfl, h, hl.1, hl.1⟩
  · simp only [Option.isSome_none, Bool.false_eq_true, and_false, if_false]
    exact ⟨_, rfl, h, hl⟩

theorem answerAct_kept {g : CBox σ} {stk : List (CBox σ)} (h : OneKept g stk) (a : CAct) (w : COut P B C) : OneKept g (answerAct a stk w).2.1 := by
  obtain ⟨f, rfl, hk, hl⟩ := h
  cases a with
  | next =>
    have h1 := nextSection_kept hk hl w.parts.length
    simp only [answerAct]
    split
    · rename_i f1 anc hx
      rw [hx] at h1
      obtain ⟨f2, e, k1, k2⟩ := h1
      cases e
      exact breakAct_kept k1 k2 w
    all_goals
      rename_i hx
      rw [hx] at h1
      exact h1
  | brk => exact breakAct_kept hk hl w
  | interrupt => exact ⟨f, rfl, hk, hl⟩
  | partialNext => exact ⟨f, rfl, hk, hl⟩
  | cont => exact ⟨f, rfl, hk, hl⟩
  | retry => exact ⟨f, rfl, hk, hl⟩

theorem elements_kept {exec : σ → Rat → Rat → Rat → Rat → Except PyErr (CellOut σ P B C)} {g : CBox σ} (hg : ∀ e ∈ g.elements, e.IsLeaf) (fuel : Nat) : ∀ (f : CBox σ) (w : COut P B C), f.Kept g →
    f.LeavesLate → ∀ {a : CAct} {stk : List (CBox σ)} {w' : COut P B C}, contentElements exec fuel [f] w = .ok (a, stk, w') → OneKept g stk := by
  induction fuel with
  | zero => intro f w _ _ a stk w' h; unfold contentElements at h; cases h
  | succ n ih =>
    intro f w hk hl a stk w' h
    unfold contentElements at h
    cases hx : f.elements[f.index]? with
    | none => rw [hx] at h; cases h; exact ⟨f, rfl, hk, hl⟩
    | some e =>
      have he : e.IsLeaf := hg e (by rw [← hk.1]; exact List.mem_of_getElem? hx)
      rw [hx] at h
      cases e with
      | leaf c st =>
        simp only at h
        cases hp : f.process exec w (.leaf c st) with
        | error e => rw [hp] at h; cases h
        | ok r =>
          obtain ⟨b, e', f1, w1⟩ := r
          rw [hp] at h
          obtain ⟨h1, hidx, rfl, h2⟩ := process_leaf_kept hk he hp
          obtain ⟨h3, h4⟩ := leaf_late he hp
          have hk' : CBox.Kept { f1 with elements := f1.elements.set f1.index (.leaf c st), index := f1.index + 1, delayed := f1.delayed ++ b.delayed.toList } g := by
            refine ⟨?_, h1.2⟩
            show f1.elements.set f1.index (.leaf c st) = g.elements
            rw [h1.1, hidx]
            rw [hk.1] at hx
            obtain ⟨hlt, hget⟩ := List.getElem?_eq_some_iff.1 hx
            rw [← hget]
            exact List.set_getElem_self hlt
          have hl' : CBox.LeavesLate { f1 with elements := f1.elements.set f1.index (.leaf c st), index := f1.index + 1, delayed := f1.delayed ++ b.delayed.toList } := by
            refine ⟨?_, by show ∀ e ∈ f1.sectionDelayed, e.IsLeaf; rw [h4]; exact hl.2⟩
            intro d hd
            rcases List.mem_append.1 hd with hd | hd
            · rw [h3] at hd; exact hl.1 d hd
            · exact h2 d (by simpa using hd)
          simp only at h
          split_ifs at h
          · cases h; exact ⟨_, rfl, hk', hl'⟩
          · exact ih _ _ hk' hl' h
      | image i => exact absurd he id
      | group l t st => exact absurd he id
      | child c gp l st => exact absurd he id

theorem run_kept {exec : σ → Rat → Rat → Rat → Rat → Except PyErr (CellOut σ P B C)} {g : CBox σ} (hg : ∀ e ∈ g.elements, e.IsLeaf) (fuel : Nat) : ∀ (stk : List (CBox σ)) (w : COut P B C), OneKept g stk →
    ∀ {a : CAct} {stk' : List (CBox σ)} {w' : COut P B C}, contentRun exec fuel stk w = .ok (a, stk', w') → OneKept g stk' := by
  induction fuel with
  | zero => intro stk w _ a stk' w' h; unfold contentRun at h; cases h
  | succ n ih =>
    intro stk w hs a stk' w' h
    obtain ⟨f, rfl, hk, hl⟩ := hs
    unfold contentRun at h
    cases h1 : f.addDelayed exec n 0 w with
    | error e => rw [h1] at h; cases h
    | ok r =>
      obtain ⟨b, f1, w1⟩ := r
      rw [h1] at h
      obtain ⟨k1, l1⟩ := addDelayed_kept n 0 f w hk hl h1
      have h2 := answerAct_kept ⟨f1, rfl, k1, l1⟩ b w1
      simp only at h
      generalize answerAct b [f1] w1 = t at h h2
      obtain ⟨act, stk2, w2⟩ := t
      simp only at h2
      split at h
      · rename_i e; cases e; exact ih _ _ h2 h
      · rename_i e; cases e; cases h; exact h2
      · rename_i e; cases e; cases h; exact h2
      · rename_i e; cases e; cases h; exact h2
      · rename_i e
        cases e
        obtain ⟨f2, rfl, k2, l2⟩ := h2
        cases h3 : contentElements exec n [f2] w2 with
        | error e => rw [h3] at h; cases h
        | ok r =>
          obtain ⟨b3, stk3, w3⟩ := r
          rw [h3] at h
          have h4 := answerAct_kept (elements_kept hg n f2 w2 k2 l2 h3) b3 w3
          simp only at h
          generalize answerAct b3 stk3 w3 = t at h h4
          obtain ⟨act4, stk4, w4⟩ := t
          simp only at h4
          obtain ⟨f4, rfl, k4, l4⟩ := h4
          split at h
          · rename_i e; cases e; exact ih _ _ ⟨f4, rfl, k4, l4⟩ h
          · rename_i e; cases e; cases h; exact ⟨f4, rfl, k4, l4⟩
          · rename_i e; cases e; cases h; exact ⟨f4, rfl, k4, l4⟩
          · rename_i e; cases e; cases h; exact ⟨f4, rfl, k4, l4⟩
          · rename_i e; cases e
          · rename_i e
            cases e
            simp only [lastOfResetting, startResetting] at h
            split_ifs at h
            all_goals first
              | (cases h; exact ⟨f4, rfl, k4, l4⟩)
              | exact ih _ _ ⟨f4, rfl, k4, l4⟩ h
              | exact ih _ _ ⟨_, rfl, reset_kept (f := { f4 with willReset := true }) k4 l4 w4⟩ h
              | exact ih _ _ ⟨_, rfl, reset_kept (f := { f4 with forward := false }) k4 l4 w4⟩ h
              | (cases h; exact ⟨_, rfl, reset_kept (f := { f4 with forward := false }) k4 l4 w4⟩)
              | (cases h; exact ⟨f4, rfl, k4, l4⟩)
              | simp_all

/-- a box of leaves, after runs: it has not changed but for what is left, which are leaves -/
def CContent.LeavesOnly (s : CContent σ P B C) : Prop :=
  (∀ e ∈ s.elements, e.IsLeaf) ∧ ∀ f, s.box = some f → f.Kept (CBox.blank s.cols s.gap s.elements true) ∧ ∀ e ∈ f.sectionDelayed, e.IsLeaf

theorem new_leavesOnly (cols : Nat) (gap : Option Rat) {els : List (CEl σ)} (h : ∀ e ∈ els, e.IsLeaf) : (CContent.new cols gap els : CContent σ P B C).LeavesOnly :=
  ⟨h, by intro f hf; cases hf⟩

/-- what a run of a box of leaves keeps -/
theorem content_run_kept {exec : σ → Rat → Rat → Rat → Rat → Except PyErr (CellOut σ P B C)} {s s' : CContent σ P B C} (hs : s.LeavesOnly) {fuel : Nat} {x y w h : Rat}
    (hr : s.run exec fuel x y w h = .ok s') : s'.LeavesOnly ∧ s'.cols = s.cols ∧ s'.gap = s.gap ∧ s'.elements = s.elements ∧ ∃ f, s'.box = some f := by
  unfold CContent.run at hr
  split at hr
  · cases hr
  · simp only at hr
    have h0 : OneKept (CBox.blank s.cols s.gap s.elements true) [(s.box.getD (CBox.blank s.cols s.gap s.elements true)).setup x w y (y - h) 0] := by
      refine ⟨_, rfl, ?_⟩
      cases hb : s.box with
      | none => exact ⟨⟨rfl, rfl, rfl, rfl, rfl⟩, by simp [CBox.LeavesLate, CBox.setup, CBox.blank]⟩
      | some f => exact ⟨(hs.2 f hb).1, (hs.2 f hb).2, (hs.2 f hb).2⟩
    split at hr
    · cases hr
    · rename_i a f1 l1 w1 h1
      cases hr
      obtain ⟨f2, e, k1, k2⟩ := run_kept (by simpa [CBox.blank] using hs.1) fuel _ _ h0 h1
      cases e
      exact ⟨⟨hs.1, by rintro f ⟨⟩; exact ⟨k1, k2.2⟩⟩, rfl, rfl, rfl, _, rfl⟩
    · cases hr

/-- a section that is set back goes on as if it had not been run -/
theorem restored_run {exec exec' : σ → Rat → Rat → Rat → Rat → Except PyErr (CellOut σ P B C)} {s s1 : CContent σ P B C} (hs : s.LeavesOnly) (hf : s.finished = false) {fuel : Nat} {x y w h : Rat}
    (hr : s.run exec fuel x y w h = .ok s1) (x' y' w' h' : Rat) : (s.restored s1).run exec' fuel x' y' w' h' = s.run exec' fuel x' y' w' h' := by
  obtain ⟨h1, h2, h3, h4, f, h5⟩ := content_run_kept hs hr
  have hk := (h1.2 f h5).1
  rw [h2, h3, h4] at hk
  have key : ((s.restored s1).box.getD (CBox.blank s.cols s.gap s.elements true)).setup x' w' y' (y' - h') 0 =
      (s.box.getD (CBox.blank s.cols s.gap s.elements true)).setup x' w' y' (y' - h') 0 := by
    refine CBox.Same.setup ?_ _ _ _ _ _
    obtain ⟨c1, c2, c3, c4, c5⟩ := hk
    cases hb : s.box with
    | none => simp only [CContent.restored, h5, hb, Option.map_some, Option.map_none, Option.getD_some, Option.getD_none]; exact ⟨c1, c2, c3, c4, rfl, rfl, rfl, c5⟩
    | some f0 =>
      obtain ⟨d1, d2, d3, d4, d5⟩ := (hs.2 f0 hb).1
      simp only [CContent.restored, h5, hb, Option.map_some, Option.getD_some]
      exact ⟨c1.trans d1.symm, c2.trans d2.symm, c3.trans d3.symm, c4.trans d4.symm, rfl, rfl, rfl, c5.trans d5.symm⟩
  unfold CContent.run
  simp only [show (s.restored s1).cols = s.cols from h2, show (s.restored s1).gap = s.gap from h3, show (s.restored s1).elements = s.elements from h4, key, hf,
    show (s.restored s1).finished = false from rfl]

end Verif
