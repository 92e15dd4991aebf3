import Verif.Lemmas.TextLower
import Verif.Props.C22_C23_Height
/-! A paragraph in a lower rectangle stops at the first line without room. -/
namespace Verif
open Spec

/-- the heights are those of the lines -/
def Summed (cfg : TCfg) (r : RunSt) : Prop := r.curHeight = linesHeight cfg.lineHeight r.lines ∧ (r.firstLineAdded = true ↔ r.lines ≠ [])

/-- the lower rectangle has the same lines, or the next one of the higher has no room in it -/
def NoRoom (lh h' : Rat) (lo hi : List (TLine × Bool)) : Prop := lo = hi ∨ ∃ x, lo ++ [x] <+: hi ∧ h' < linesHeight lh (lo ++ [x])

structure Full (cfg : TCfg) (h' : Rat) (lo hi : RunSt × Bool) : Prop where
  summed : lo.2 = true → Summed cfg lo.1
  next : NoRoom cfg.lineHeight h' lo.1.lines hi.1.lines
  stop : lo.2 = false → hi.2 = true → lo.1.lines ≠ hi.1.lines

theorem NoRoom.grow {lh h' : Rat} {lo hi hi' : List (TLine × Bool)} (h : NoRoom lh h' lo hi) (hne : lo ≠ hi) (hg : hi <+: hi') : NoRoom lh h' lo hi' := by
  rcases h with h | ⟨x, h1, h2⟩
  · exact absurd h hne
  · exact .inr ⟨x, h1.trans hg, h2⟩

theorem grown_ne {lo hi hi' : List (TLine × Bool)} (h : lo <+: hi) (hne : lo ≠ hi) (hg : hi <+: hi') : lo ≠ hi' := by
  rintro rfl
  exact hne (h.eq_of_length (le_antisymm h.length_le hg.length_le))

theorem linesHeight_snoc {cfg : TCfg} {r : RunSt} (h : Summed cfg r) (x : TLine × Bool) :
    linesHeight cfg.lineHeight (r.lines ++ [x]) = (if r.firstLineAdded then x.1.height * cfg.lineHeight else x.1.height) + r.curHeight := by
  rw [h.1]
  cases hl : r.lines with
  | nil =>
    have : r.firstLineAdded = false := by
      by_contra hc
      exact (h.2.mp (by simpa using hc)) hl
    rw [this]
    simp [linesHeight, height_eq]
  | cons y ys =>
    have : r.firstLineAdded = true := h.2.mpr (by rw [hl]; simp)
    rw [this]
    simp [linesHeight, height_eq]
    ring

/-- a line is added if it has room -/
theorem addCurrentLine_shape (cfg : TCfg) (b : Bool) (r : RunSt) :
    ∃ (c : TLine) (no yes : RunSt), (∀ h, addCurrentLine cfg h b r = if (if r.firstLineAdded then c.height * cfg.lineHeight else c.height) + r.curHeight > h then (no, false) else (yes, true)) ∧
      no.lines = r.lines ∧ yes.lines = r.lines ++ [(c, b)] ∧ yes.firstLineAdded = true ∧ yes.curHeight = r.curHeight + (if r.firstLineAdded then c.height * cfg.lineHeight else c.height) :=
  ⟨_, _, _, fun _ => rfl, rfl, rfl, rfl, rfl⟩

theorem addCurrentLine_full (cfg : TCfg) {h h' : Rat} (hh : h' ≤ h) (b : Bool) {r : RunSt} (hr : Summed cfg r) : Full cfg h' (addCurrentLine cfg h' b r) (addCurrentLine cfg h b r) := by
  obtain ⟨c, no, yes, h1, h2, h3, h4, h5⟩ := addCurrentLine_shape cfg b r
  have hs := linesHeight_snoc hr (c, b)
  simp only at hs
  rw [h1, h1]
  generalize (if r.firstLineAdded then c.height * cfg.lineHeight else c.height) = k at hs h5 ⊢
  by_cases hk : k + r.curHeight > h
  · rw [if_pos hk, if_pos (show k + r.curHeight > h' from lt_of_le_of_lt hh hk)]
    exact ⟨(by intro hf; cases hf), .inl rfl, (by intro _ hf; cases hf)⟩
  · rw [if_neg hk]
    by_cases hk' : k + r.curHeight > h'
    · rw [if_pos hk']
      refine ⟨(by intro hf; cases hf), .inr ⟨(c, b), ?_, ?_⟩, fun _ _ => ?_⟩
      · simp only [h2, h3]; exact List.prefix_refl _
      · simp only [h2]; rw [hs]; exact hk'
      · simp only [h2, h3]; intro e; simpa using congrArg List.length e
    · rw [if_neg hk']
      refine ⟨fun _ => ⟨?_, ?_⟩, .inl rfl, (by intro hf; cases hf)⟩
      · simp only [h3, hs, h5]; ring
      · simp [h3, h4]

theorem wordLoop_full (M : Metrics) (cfg : TCfg) (width : Rat) {h h' : Rat} (hh : h' ≤ h) (i n : Nat) : ∀ (ws : List Str) (k : Nat) (r : RunSt), Summed cfg r →
    Full cfg h' (wordLoop M cfg width h' i n ws k r) (wordLoop M cfg width h i n ws k r) := by
  intro ws
  induction ws with
  | nil => intro k r hr; exact ⟨fun _ => hr, .inl rfl, (by intro hf; cases hf)⟩
  | cons w ws ih =>
    intro k r hr
    unfold wordLoop
    split
    · exact ih _ _ hr
    · rename_i l nl hw
      have hb := addCurrentLine_below cfg hh (decide (i + 1 = cfg.content.length) && decide (k + 1 = n)) { r with cur := l }
      have hu := addCurrentLine_full cfg hh (decide (i + 1 = cfg.content.length) && decide (k + 1 = n)) (r := { r with cur := l }) hr
      simp only
      generalize addCurrentLine cfg h' (decide (i + 1 = cfg.content.length) && decide (k + 1 = n)) { r with cur := l } = lo at hb hu ⊢
      generalize addCurrentLine cfg h (decide (i + 1 = cfg.content.length) && decide (k + 1 = n)) { r with cur := l } = hi at hb hu ⊢
      obtain ⟨g1, g2, g3⟩ := hb
      obtain ⟨u1, u2, u3⟩ := hu
      by_cases hlo : lo.2 = true
      · cases g3 hlo
        rw [if_pos hlo, if_pos hlo]
        exact ih (k + 1) { lo.1 with cur := { nl with maxWidth := width - cfg.listIndent } } (u1 hlo)
      · rw [if_neg hlo]
        by_cases hhi : hi.2 = true
        · rw [if_pos hhi]
          have t1 := (wordLoop_below M cfg width hh i n ws (k + 1) { hi.1 with cur := { nl with maxWidth := width - cfg.listIndent } }).grows
          have hne := u3 (by simpa using hlo) hhi
          exact ⟨(by intro hf; cases hf), u2.grow hne t1, fun _ _ => grown_ne g2 hne t1⟩
        · rw [if_neg hhi]
          exact ⟨(by intro hf; cases hf), u2, (by intro _ hf; cases hf)⟩
    · exact ih _ _ hr
    · exact ih _ _ hr

theorem addPart_full (M : Metrics) (cfg : TCfg) (width : Rat) {h h' : Rat} (hh : h' ≤ h) (i : Nat) (words : List Str) (look : TLook) (ids : Option (List Str)) (r : RunSt) (hr : Summed cfg r) :
    Full cfg h' (addPart M cfg width h' i words look ids r) (addPart M cfg width h i words look ids r) := by
  have hl : Summed cfg (setupList cfg { r with cur := r.cur.addLinePart look ids }) := by
    unfold setupList
    split
    · exact hr
    · split <;> exact hr
  unfold addPart
  simp only
  generalize setupList cfg { r with cur := r.cur.addLinePart look ids } = r1 at hl ⊢
  have g3 := (wordLoop_below M cfg width hh i words.length (words.drop r1.pos.lastWord) r1.pos.lastWord { r1 with curUsed := r1.curUsed ++ [(look.st.family, look.st.mode)] }).same
  obtain ⟨u1, u2, u3⟩ := wordLoop_full M cfg width hh i words.length (words.drop r1.pos.lastWord) r1.pos.lastWord { r1 with curUsed := r1.curUsed ++ [(look.st.family, look.st.mode)] } hl
  generalize wordLoop M cfg width h' i words.length (words.drop r1.pos.lastWord) r1.pos.lastWord { r1 with curUsed := r1.curUsed ++ [(look.st.family, look.st.mode)] } = lo at g3 u1 u2 u3 ⊢
  generalize wordLoop M cfg width h i words.length (words.drop r1.pos.lastWord) r1.pos.lastWord { r1 with curUsed := r1.curUsed ++ [(look.st.family, look.st.mode)] } = hi at g3 u1 u2 u3 ⊢
  by_cases hlo : lo.2 = true
  · cases g3 hlo
    rw [if_pos hlo]
    exact ⟨fun _ => u1 hlo, .inl rfl, (by intro hf; cases hf)⟩
  · rw [if_neg hlo]
    refine ⟨fun hf => absurd hf hlo, by split <;> exact u2, ?_⟩
    by_cases hhi : hi.2 = true
    · rw [if_pos hhi]; exact fun hf _ => u3 hf hhi
    · rw [if_neg hhi]; exact u3

theorem partLoop_full (M : Metrics) (cfg : TCfg) (width : Rat) {h h' : Rat} (hh : h' ≤ h) : ∀ (l : List TItem) (i : Nat) (r : RunSt), Summed cfg r →
    Full cfg h' (partLoop M cfg width h' l i r) (partLoop M cfg width h l i r) := by
  intro l
  induction l with
  | nil => intro i r hr; exact ⟨fun _ => hr, .inl rfl, (by intro hf; cases hf)⟩
  | cons e l ih =>
    intro i r hr
    cases e with
    | skip => exact ih _ _ hr
    | br =>
      unfold partLoop
      have hb := addCurrentLine_below cfg hh true { r with pos := { r.pos with partAdded := i + 1, wordAdded := 0 } }
      have hu := addCurrentLine_full cfg hh true (r := { r with pos := { r.pos with partAdded := i + 1, wordAdded := 0 } }) hr
      simp only
      generalize addCurrentLine cfg h' true { r with pos := { r.pos with partAdded := i + 1, wordAdded := 0 } } = lo at hb hu ⊢
      generalize addCurrentLine cfg h true { r with pos := { r.pos with partAdded := i + 1, wordAdded := 0 } } = hi at hb hu ⊢
      obtain ⟨g1, g2, g3⟩ := hb
      obtain ⟨u1, u2, u3⟩ := hu
      by_cases hlo : lo.2 = true
      · cases g3 hlo
        rw [if_pos hlo, if_pos hlo]
        exact ih (i + 1) { lo.1 with cur := TLine.new width cfg.align cfg.lineHeight } (u1 hlo)
      · rw [if_neg hlo]
        by_cases hhi : hi.2 = true
        · rw [if_pos hhi]
          have t1 := (partLoop_below M cfg width hh l (i + 1) { hi.1 with cur := TLine.new width cfg.align cfg.lineHeight }).grows
          have hne := u3 (by simpa using hlo) hhi
          exact ⟨(by intro hf; cases hf), u2.grow hne t1, fun _ _ => grown_ne g2 hne t1⟩
        · rw [if_neg hhi]
          exact ⟨(by intro hf; cases hf), u2, (by intro _ hf; cases hf)⟩
    | text words look ids =>
      unfold partLoop
      have hb := addPart_below M cfg width hh i words look ids r
      have hu := addPart_full M cfg width hh i words look ids r hr
      simp only
      generalize addPart M cfg width h' i words look ids r = lo at hb hu ⊢
      generalize addPart M cfg width h i words look ids r = hi at hb hu ⊢
      obtain ⟨g1, g2, g3⟩ := hb
      obtain ⟨u1, u2, u3⟩ := hu
      by_cases hlo : lo.2 = true
      · cases g3 hlo
        rw [if_pos hlo, if_pos hlo]
        exact ih (i + 1) lo.1 (u1 hlo)
      · rw [if_neg hlo]
        by_cases hhi : hi.2 = true
        · rw [if_pos hhi]
          have t1 := (partLoop_below M cfg width hh l (i + 1) hi.1).grows
          have hne := u3 (by simpa using hlo) hhi
          exact ⟨fun hf => absurd hf hlo, u2.grow hne t1, fun _ _ => grown_ne g2 hne t1⟩
        · rw [if_neg hhi]
          exact ⟨fun hf => absurd hf hlo, u2, u3⟩

theorem textRun_full (M : Metrics) (cfg : TCfg) (width : Rat) {h h' : Rat} (hh : h' ≤ h) (pos : TPos) :
    NoRoom cfg.lineHeight h' (textRun M cfg width h' pos).lines (textRun M cfg width h pos).lines := by
  obtain ⟨g1, g2, g3⟩ := partLoop_below M cfg width hh (cfg.content.drop pos.lastPart) pos.lastPart (runInit cfg width pos)
  obtain ⟨u1, u2, u3⟩ := partLoop_full M cfg width hh (cfg.content.drop pos.lastPart) pos.lastPart (runInit cfg width pos) ⟨rfl, by simp [runInit]⟩
  unfold textRun
  simp only
  generalize partLoop M cfg width h' (cfg.content.drop pos.lastPart) pos.lastPart (runInit cfg width pos) = lo at g1 g2 g3 u1 u2 u3 ⊢
  generalize partLoop M cfg width h (cfg.content.drop pos.lastPart) pos.lastPart (runInit cfg width pos) = hi at g1 g2 g3 u1 u2 u3 ⊢
  by_cases hlo : lo.2 = true
  · cases g3 hlo
    rw [if_pos hlo, if_pos hlo]
    have := (addCurrentLine_full cfg hh true (u1 hlo)).next
    split <;> split <;> exact this
  · rw [if_neg hlo]
    by_cases hhi : hi.2 = true
    · rw [if_pos hhi]
      have := u2.grow (u3 (by simpa using hlo) hhi) (addCurrentLine_below cfg hh true hi.1).grows
      split <;> exact this
    · rw [if_neg hhi]; exact u2

end Verif
