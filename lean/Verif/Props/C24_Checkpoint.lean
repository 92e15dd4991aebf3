import Verif.Props.C22_C23_Height
/-! C24: `get_state` and `set_state` of a paragraph. -/
namespace Verif
open Spec

/-- `get_state`, text.py:524-537 -/
def TPos.getState (p : TPos) : Nat × Nat := (p.lastPart, p.lastWord)

/-- `set_state`, text.py:539-555 -/
def TPos.setState (p : TPos) (s : Nat × Nat) : TPos := { p with lastPart := s.1, lastWord := s.2 }

/-- two runs that do the same: the variables are the same but for those that the next line will set -/
structure Sim (r r' : RunSt) : Prop where
  cur : r'.cur = r.cur
  ht : r'.curHeight = r.curHeight
  fla : r'.firstLineAdded = r.firstLineAdded
  lines : r'.lines = r.lines
  used : r'.used = r.used
  curUsed : r'.curUsed = r.curUsed
  lastWord : r'.pos.lastWord = r.pos.lastWord
  first : r'.pos.isFirstLine = r.pos.isFirstLine
  done : r'.pos.listDone = r.pos.listDone
  fin : r'.pos.finished = r.pos.finished
  line : r.lines ≠ [] → r'.pos.partLine = r.pos.partLine ∧ r'.pos.wordLine = r.pos.wordLine
  added : r.cur.started = true → r'.pos.partAdded = r.pos.partAdded ∧ r'.pos.wordAdded = r.pos.wordAdded

/-- two runs with the same result -/
structure SimEnd (r r' : RunSt) : Prop where
  ht : r'.curHeight = r.curHeight
  lines : r'.lines = r.lines
  used : r'.used = r.used
  first : r'.pos.isFirstLine = r.pos.isFirstLine
  done : r'.pos.listDone = r.pos.listDone
  fin : r'.pos.finished = r.pos.finished
  line : r.pos.finished = false → r.lines ≠ [] → r'.pos.getState = r.pos.getState ∧
    r'.pos.partLine = r.pos.partLine ∧ r'.pos.wordLine = r.pos.wordLine

/-- both or the last of the two: what is known after a loop -/
def SimRes (a a' : RunSt × Bool) : Prop :=
  a'.2 = a.2 ∧ (if a.2 then Sim a.1 a'.1 else SimEnd a.1 a'.1)

theorem addWord_finished_started {M : Metrics} {l l' nl : TLine} {w : Str} (h : l.addWord M w = (l', .finished nl)) :
    l.started = true ∧ nl.started = false := by
  unfold TLine.addWord at h
  simp only [] at h
  split at h
  · split at h
    · split at h <;> cases h
    · cases h
  · rename_i hs
    split at h
    · split at h <;> cases h
    · split at h
      · cases h
      · simp only [Prod.mk.injEq, AddRes.finished.injEq] at h
        exact ⟨by simpa using hs, by rw [← h.2]⟩

theorem addWord_keep_started {M : Metrics} {l l' : TLine} {w : Str} {res : AddRes} (h : l.addWord M w = (l', res))
    (hr : res = .ignored ∨ res = .preadded) : l'.started = l.started := by
  unfold TLine.addWord at h
  simp only [] at h
  split at h
  · split at h
    · split at h
      · rcases hr with hr | hr <;> subst hr <;> cases h
      · cases h; rfl
    · rcases hr with hr | hr <;> subst hr <;> cases h
  · split at h
    · split at h
      · cases h; rfl
      · rcases hr with hr | hr <;> subst hr <;> cases h
    · split at h
      · cases h; rfl
      · rcases hr with hr | hr <;> subst hr <;> cases h

/-- closing a line when the next position is known -/
theorem sim_accept {cfg : TCfg} {r r' : RunSt} (h : Sim r r') (l nl : TLine) (b : Bool)
    (ha : r'.pos.partAdded = r.pos.partAdded ∧ r'.pos.wordAdded = r.pos.wordAdded) (hn : nl.started = false) :
    Sim { accept cfg r l b with cur := nl } { accept cfg r' l b with cur := nl } := by
  refine ⟨rfl, ?_, rfl, ?_, ?_, rfl, h.lastWord, rfl, h.done, h.fin, fun _ => ha, ?_⟩
  · simp only [accept, lineH, h.ht, h.fla]
  · simp only [accept, h.lines]
  · simp only [accept, h.used, h.curUsed]
  · intro hs; simp only [hn] at hs; cases hs

theorem sim_reject {r r' : RunSt} (h : Sim r r') (l nl : TLine) :
    SimEnd { reject r l with cur := nl } { reject r' l with cur := nl } := by
  refine ⟨h.ht, h.lines, h.used, h.first, h.done, h.fin, ?_⟩
  intro _ hl
  have := h.line hl
  simp [reject, TPos.getState, this]

theorem sim_close {cfg : TCfg} {height : Rat} {r r' : RunSt} (h : Sim r r') (l nl : TLine) (b : Bool)
    (ha : r'.pos.partAdded = r.pos.partAdded ∧ r'.pos.wordAdded = r.pos.wordAdded) (hn : nl.started = false) (_hc : r.cur = l) :
    (addCurrentLine cfg height b r').2 = (addCurrentLine cfg height b r).2 ∧
    (if (addCurrentLine cfg height b r).2 then
      Sim { (addCurrentLine cfg height b r).1 with cur := nl } { (addCurrentLine cfg height b r').1 with cur := nl }
     else SimEnd { (addCurrentLine cfg height b r).1 with cur := nl } { (addCurrentLine cfg height b r').1 with cur := nl }) := by
  rw [addCurrentLine_eq, addCurrentLine_eq, h.cur]
  have e : lineH cfg r' (closeLine b r.cur) + r'.curHeight = lineH cfg r (closeLine b r.cur) + r.curHeight := by
    simp only [lineH, h.fla, h.ht]
  rw [e]
  by_cases hh : lineH cfg r (closeLine b r.cur) + r.curHeight > height
  · rw [if_pos hh, if_pos hh]
    exact ⟨rfl, by simpa using sim_reject h _ nl⟩
  · rw [if_neg hh, if_neg hh]
    exact ⟨rfl, by simpa using sim_accept h _ nl b ha hn⟩

theorem wordLoop_sim (M : Metrics) (cfg : TCfg) (width height : Rat) (i n : Nat) : ∀ (ws : List Str) (k : Nat) (r r' : RunSt),
    Sim r r' → SimRes (wordLoop M cfg width height i n ws k r) (wordLoop M cfg width height i n ws k r') := by
  intro ws
  induction ws with
  | nil => intro k r r' h; exact ⟨rfl, by simpa [wordLoop] using h⟩
  | cons w ws ih =>
    intro k r r' h
    simp only [wordLoop, h.cur]
    cases hw : r.cur.addWord M w with
    | mk l' res =>
      cases res with
      | added =>
        simp only []
        exact ih _ _ _ ⟨rfl, h.ht, h.fla, h.lines, h.used, h.curUsed, h.lastWord, h.first, h.done, h.fin, h.line, fun _ => ⟨rfl, rfl⟩⟩
      | ignored =>
        simp only []
        refine ih _ _ _ ⟨rfl, h.ht, h.fla, h.lines, h.used, h.curUsed, h.lastWord, h.first, h.done, h.fin, h.line, fun hs => h.added ?_⟩
        rw [← addWord_keep_started hw (Or.inl rfl)]; exact hs
      | preadded =>
        simp only []
        refine ih _ _ _ ⟨rfl, h.ht, h.fla, h.lines, h.used, h.curUsed, h.lastWord, h.first, h.done, h.fin, h.line, fun hs => h.added ?_⟩
        rw [← addWord_keep_started hw (Or.inr rfl)]; exact hs
      | finished nl =>
        simp only []
        obtain ⟨hst, hn⟩ := addWord_finished_started hw
        have hsim : Sim { r with cur := l' } { r' with cur := l' } :=
          ⟨rfl, h.ht, h.fla, h.lines, h.used, h.curUsed, h.lastWord, h.first, h.done, h.fin, h.line, fun _ => h.added hst⟩
        obtain ⟨h2, h3⟩ := sim_close (cfg := cfg) (height := height) hsim l' { nl with maxWidth := width - cfg.listIndent }
          (decide (i + 1 = cfg.content.length) && decide (k + 1 = n)) (h.added hst) hn rfl
        rw [h2]
        rcases hb : (addCurrentLine cfg height (decide (i + 1 = cfg.content.length) && decide (k + 1 = n)) { r with cur := l' }).2 with _ | _
        · rw [hb] at h3
          simp only [Bool.false_eq_true, if_false] at h3 ⊢
          exact ⟨rfl, by simpa using h3⟩
        · rw [hb] at h3
          simp only [if_true] at h3 ⊢
          exact ih _ _ _ h3

theorem partStart_sim (cfg : TCfg) (look : TLook) (ids : Option (List Str)) (r r' : RunSt) (h : Sim r r') :
    Sim (partStart cfg look ids r) (partStart cfg look ids r') := by
  unfold partStart setupList
  simp only [h.cur, h.done]
  cases cfg.list with
  | none => exact ⟨rfl, h.ht, h.fla, h.lines, h.used, by simp [h.curUsed], h.lastWord, h.first, h.done, h.fin, h.line, h.added⟩
  | some l =>
    simp only []
    by_cases hd : r.pos.listDone = true
    · simp only [if_pos hd]
      exact ⟨rfl, h.ht, h.fla, h.lines, h.used, by simp [h.curUsed], h.lastWord, h.first, h.done, h.fin, h.line, h.added⟩
    · simp only [if_neg hd]
      exact ⟨rfl, h.ht, h.fla, h.lines, h.used, by simp [h.curUsed], h.lastWord, h.first, rfl, h.fin, h.line, h.added⟩

theorem partLoop_sim (M : Metrics) (cfg : TCfg) (width height : Rat) : ∀ (l : List TItem) (i : Nat) (r r' : RunSt),
    Sim r r' → SimRes (partLoop M cfg width height l i r) (partLoop M cfg width height l i r') := by
  intro l
  induction l with
  | nil => intro i r r' h; exact ⟨rfl, by simpa [partLoop] using h⟩
  | cons x l ih =>
    intro i r r' h
    cases x with
    | skip => simp only [partLoop]; exact ih _ _ _ h
    | br =>
      simp only [partLoop]
      have hsim : Sim { r with pos := { r.pos with partAdded := i + 1, wordAdded := 0 } }
          { r' with pos := { r'.pos with partAdded := i + 1, wordAdded := 0 } } :=
        ⟨h.cur, h.ht, h.fla, h.lines, h.used, h.curUsed, h.lastWord, h.first, h.done, h.fin, h.line, fun _ => ⟨rfl, rfl⟩⟩
      obtain ⟨h2, h3⟩ := sim_close (cfg := cfg) (height := height) hsim _ (TLine.new width cfg.align cfg.lineHeight) true ⟨rfl, rfl⟩ rfl rfl
      rw [h2]
      rcases hb : (addCurrentLine cfg height true { r with pos := { r.pos with partAdded := i + 1, wordAdded := 0 } }).2 with _ | _
      · rw [hb] at h3
        simp only [Bool.false_eq_true, if_false] at h3 ⊢
        exact ⟨rfl, by simpa using h3⟩
      · rw [hb] at h3
        simp only [if_true] at h3 ⊢
        exact ih _ _ _ h3
    | text ws look ids =>
      simp only [partLoop]
      have h1 := partStart_sim cfg look ids r r' h
      have h2 := wordLoop_sim M cfg width height i ws.length (ws.drop (partStart cfg look ids r).pos.lastWord)
        (partStart cfg look ids r).pos.lastWord _ _ h1
      have e : ∀ s : RunSt, addPart M cfg width height i ws look ids s =
          (if (wordLoop M cfg width height i ws.length (ws.drop (partStart cfg look ids s).pos.lastWord) (partStart cfg look ids s).pos.lastWord (partStart cfg look ids s)).2
           then ({ (wordLoop M cfg width height i ws.length (ws.drop (partStart cfg look ids s).pos.lastWord) (partStart cfg look ids s).pos.lastWord (partStart cfg look ids s)).1 with
              pos := { (wordLoop M cfg width height i ws.length (ws.drop (partStart cfg look ids s).pos.lastWord) (partStart cfg look ids s).pos.lastWord (partStart cfg look ids s)).1.pos with lastWord := 0 } }, true)
           else wordLoop M cfg width height i ws.length (ws.drop (partStart cfg look ids s).pos.lastWord) (partStart cfg look ids s).pos.lastWord (partStart cfg look ids s)) := fun _ => rfl
      rw [e r, e r', h1.lastWord]
      obtain ⟨h3, h4⟩ := h2
      rw [h3]
      rcases hb : (wordLoop M cfg width height i ws.length (ws.drop (partStart cfg look ids r).pos.lastWord) (partStart cfg look ids r).pos.lastWord (partStart cfg look ids r)).2 with _ | _
      · rw [hb] at h4
        simp only [Bool.false_eq_true, if_false] at h4 ⊢
        rw [hb, h3, hb]
        simp only [Bool.false_eq_true, if_false]
        exact ⟨by rw [h3, hb], by rw [hb]; simpa using h4⟩
      · rw [hb] at h4
        simp only [if_true] at h4 ⊢
        refine ih _ _ _ ⟨h4.cur, h4.ht, h4.fla, h4.lines, h4.used, h4.curUsed, rfl, h4.first, h4.done, h4.fin, h4.line, h4.added⟩

theorem textRun_sim (M : Metrics) (cfg : TCfg) (width height : Rat) (p p' : TPos) (hs : p'.getState = p.getState)
    (h1 : p'.isFirstLine = p.isFirstLine) (h2 : p'.listDone = p.listDone) (h3 : p'.finished = p.finished) :
    SimEnd (textRun M cfg width height p) (textRun M cfg width height p') := by
  simp only [TPos.getState, Prod.mk.injEq] at hs
  unfold textRun
  rw [hs.1]
  have h0 : Sim (runInit cfg width p) (runInit cfg width p') := by
    refine ⟨?_, rfl, rfl, rfl, rfl, rfl, hs.2, h1, h2, h3, ?_, ?_⟩
    · simp only [runInit, h1]
    · intro h; simp [runInit] at h
    · intro h; simp [runInit, TLine.new] at h
  obtain ⟨h4, h5⟩ := partLoop_sim M cfg width height (cfg.content.drop p.lastPart) p.lastPart _ _ h0
  simp only []
  rw [h4]
  rcases hb : (partLoop M cfg width height (cfg.content.drop p.lastPart) p.lastPart (runInit cfg width p)).2 with _ | _
  · rw [hb] at h5
    simpa using h5
  · rw [hb] at h5
    simp only [if_true] at h5 ⊢
    rw [addCurrentLine_eq, addCurrentLine_eq, h5.cur]
    generalize (partLoop M cfg width height (cfg.content.drop p.lastPart) p.lastPart (runInit cfg width p)).1 = r at h5 ⊢
    generalize (partLoop M cfg width height (cfg.content.drop p.lastPart) p.lastPart (runInit cfg width p')).1 = r' at h5 ⊢
    have e : lineH cfg r' (closeLine true r.cur) + r'.curHeight = lineH cfg r (closeLine true r.cur) + r.curHeight := by
      simp only [lineH, h5.fla, h5.ht]
    rw [e]
    by_cases hh : lineH cfg r (closeLine true r.cur) + r.curHeight > height
    · rw [if_pos hh, if_pos hh]
      simp only [Bool.false_eq_true, if_false]
      exact sim_reject h5 (closeLine true r.cur) (closeLine true r.cur)
    · rw [if_neg hh, if_neg hh]
      simp only [if_true]
      refine ⟨?_, ?_, ?_, rfl, h5.done, rfl, ?_⟩
      · simp only [accept, lineH, h5.ht, h5.fla]
      · simp only [accept, h5.lines]
      · simp only [accept, h5.used, h5.curUsed]
      · intro hf; simp at hf

/-! Runs do not bring the first line back. -/

theorem textRuns_first (M : Metrics) (cfg : TCfg) : ∀ (rects : List (Rat × Rat)) (E : List (WTok Piece)) (pos : TPos),
    WPost cfg E pos → pos.isFirstLine = false → (textRuns M cfg rects pos).1.isFirstLine = false := by
  intro rects
  induction rects with
  | nil => intro E pos _ hf; exact hf
  | cons x l ih =>
    intro E pos h hf
    obtain ⟨w, hh⟩ := x
    have hne : ¬ pos.finished = true := by rw [h.fin]; simp
    simp only [textRuns, if_neg hne]
    have h1 : (textRun M cfg w hh pos).pos.isFirstLine = false := by
      rw [textRun_first M cfg w hh pos h.lastV, hf]; rfl
    have hrun := textRun_words M cfg w hh E pos h
    simp only [] at hrun
    rcases hrun with ⟨hfin, _⟩ | hr
    · cases l with
      | nil => exact h1
      | cons y l => obtain ⟨a, b⟩ := y; simpa [textRuns, hfin] using h1
    · exact ih _ _ hr h1

theorem textRun_done (M : Metrics) (cfg : TCfg) (hl : cfg.list = none) (width height : Rat) (pos : TPos)
    (hv : ValidPos cfg.content pos.lastPart pos.lastWord) : (textRun M cfg width height pos).pos.listDone = pos.listDone := by
  refine textRun_ind (P := fun r _ _ => r.pos.listDone = pos.listDone) (Q := fun r => r.pos.listDone = pos.listDone)
    (M := M) (cfg := cfg) (width := width) (height := height) ?_ pos hv.2 hv.1 rfl
    (fun r => r.pos.listDone = pos.listDone) (fun r hr => hr) (fun r h _ _ => h) (fun r h _ _ => h)
  refine ⟨?_, ?_, ?_, ?_, ?_, ?_, ?_, ?_, ?_⟩
  · intro r i k ws look ids w l' h _ _ _ _ _; exact h
  · intro r i k ws look ids w l' res h _ _ _ _ _ _; exact h
  · intro r i k ws look ids w l' nl b h _ _ _ _ _ _ _; exact h
  · intro r i k ws look ids w l' nl h _ _ _ _ _ _; exact h
  · intro r i k ws look ids h _ _; simpa [partStart, setupList, hl] using h
  · intro r i ws look ids h _ _; exact h
  · intro r i h _ _; exact h
  · intro r i h _ _ _; exact h
  · intro r i h _ _ _; exact h

theorem textRuns_done (M : Metrics) (cfg : TCfg) (hl : cfg.list = none) : ∀ (rects : List (Rat × Rat)) (E : List (WTok Piece)) (pos : TPos),
    WPost cfg E pos → (textRuns M cfg rects pos).1.listDone = pos.listDone := by
  intro rects
  induction rects with
  | nil => intro E pos _; rfl
  | cons x l ih =>
    intro E pos h
    obtain ⟨w, hh⟩ := x
    have hne : ¬ pos.finished = true := by rw [h.fin]; simp
    simp only [textRuns, if_neg hne]
    have h1 := textRun_done M cfg hl w hh pos h.lastV
    have hrun := textRun_words M cfg w hh E pos h
    simp only [] at hrun
    rcases hrun with ⟨hfin, _⟩ | hr
    · cases l with
      | nil => exact h1
      | cons y l => obtain ⟨a, b⟩ := y; simpa [textRuns, hfin] using h1
    · rw [ih _ _ hr, h1]

/-- **C24, partial: once a line of a paragraph without list text was placed, and while it is not finished.**
Whatever rectangles the paragraph is run in after the checkpoint, restoring and running in a rectangle places
the lines, takes the height, uses the fonts and finishes as a run there right after the checkpoint, and, if a line was
placed, goes on from the same state. -/
theorem C24_restore_partial (M : Metrics) (cfg : TCfg) (hl : cfg.list = none) (p : TPos) (hp : TReach M cfg p)
    (hfirst : p.isFirstLine = false) (between : List (Rat × Rat)) (p' : TPos) (hb : p' = (textRuns M cfg between p).1)
    (hfin : p'.finished = false) (width height : Rat) :
    (textRun M cfg width height (p'.setState p.getState)).lines = (textRun M cfg width height p).lines ∧
    (textRun M cfg width height (p'.setState p.getState)).curHeight = (textRun M cfg width height p).curHeight ∧
    (textRun M cfg width height (p'.setState p.getState)).used = (textRun M cfg width height p).used ∧
    (textRun M cfg width height (p'.setState p.getState)).pos.finished = (textRun M cfg width height p).pos.finished ∧
    ((textRun M cfg width height p).pos.finished = false → (textRun M cfg width height p).lines ≠ [] →
      (textRun M cfg width height (p'.setState p.getState)).pos.getState = (textRun M cfg width height p).pos.getState) := by
  subst hb
  obtain ⟨E, hw⟩ := hp.post
  have := textRun_sim M cfg width height p ((textRuns M cfg between p).1.setState p.getState) rfl
    (by rw [hfirst]; exact textRuns_first M cfg between E p hw hfirst)
    (textRuns_done M cfg hl between E p hw) (by rw [hw.fin]; exact hfin)
  exact ⟨this.lines, this.ht, this.used, this.fin, fun h1 h2 => (this.line h1 h2).1⟩

section Examples
private def ex24Look : TLook := ⟨⟨c!"Helvetica", c!"n", c!"F1", 10, ⟨none, false⟩, 0⟩, false, ⟨none, false⟩, none⟩
private def ex24M : Metrics := fun _ _ _ => 1 / 2
private def ex24Cfg (indent : Rat) : TCfg := ⟨[.text (splitWords c!"aa bb cc dd ee ff") ex24Look none], indent, c!"l", 1, none⟩

/-- the words of the lines of a run -/
private def ex24Words (r : RunSt) : List (List Str) := r.lines.map fun l => (l.1.parts.map fun p => p.words).flatten

-- a checkpoint after the first line, two runs in between
example : let p := (textRun ex24M (ex24Cfg 0) 26 11 TPos.init).pos
    p.isFirstLine = false ∧ p.getState = (0, 4) ∧ (textRuns ex24M (ex24Cfg 0) [(26, 11), (26, 5)] p).1.finished = false ∧
    ex24Words (textRun ex24M (ex24Cfg 0) 26 11 p) = [[c!"cc", c!" ", c!"dd"]] := by decide +kernel

/-- **C24 is false before the first line was placed**: the restored paragraph has lost its indent. -/
theorem C24_indent_false : ∃ (M : Metrics) (cfg : TCfg), cfg.list = none ∧
    ∃ p', p' = (textRuns M cfg [(26, 11)] TPos.init).1 ∧ p'.finished = false ∧
      ((textRun M cfg 26 11 TPos.init).lines.map fun l => l.1.maxWidth) = [21] ∧
      ((textRun M cfg 26 11 (p'.setState TPos.init.getState)).lines.map fun l => l.1.maxWidth) = [26] :=
  ⟨ex24M, ex24Cfg 5, rfl, _, rfl, by decide +kernel, by decide +kernel, by decide +kernel⟩

/-- **C24 is false when nothing fits after the restore**: the paragraph goes on where it was before the
restore, and the words in between are lost. -/
theorem C24_lost_words_false : ∃ (M : Metrics) (cfg : TCfg), cfg.list = none ∧
    ∃ p p', p = (textRun M cfg 26 11 TPos.init).pos ∧ p' = (textRun M cfg 26 11 p).pos ∧ p'.finished = false ∧
      -- a run in a rectangle with no room, directly and after restoring
      (textRun M cfg 26 5 p).lines = [] ∧ (textRun M cfg 26 5 p).pos.getState = (0, 4) ∧
      (textRun M cfg 26 5 (p'.setState p.getState)).lines = [] ∧ (textRun M cfg 26 5 (p'.setState p.getState)).pos.getState = (0, 8) :=
  ⟨ex24M, ex24Cfg 0, rfl, _, _, rfl, rfl, by decide +kernel, by decide +kernel, by decide +kernel, by decide +kernel, by decide +kernel⟩

/-- **C24 is false for a paragraph that was finished in between**: it stays finished, whatever still fits. -/
theorem C24_finished_false : ∃ (M : Metrics) (cfg : TCfg), cfg.list = none ∧
    ∃ p p', p = (textRun M cfg 26 11 TPos.init).pos ∧ p' = (textRun M cfg 26 100 p).pos ∧
      (textRun M cfg 26 11 p).pos.finished = false ∧ (textRun M cfg 26 11 (p'.setState p.getState)).pos.finished = true ∧
      (textRun M cfg 26 11 (p'.setState p.getState)).lines = (textRun M cfg 26 11 p).lines :=
  ⟨ex24M, ex24Cfg 0, rfl, _, _, rfl, rfl, by decide +kernel, by decide +kernel, by decide +kernel⟩

end Examples
end Verif
