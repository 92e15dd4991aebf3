import Verif.Lemmas.Text
import Verif.Model.TextOut
import Verif.Lemmas.PdfOutput
/-! The ids of what a run of a paragraph writes are those of its content. -/
namespace Verif
open Spec

/-- the ids of a paragraph -/
def Spec.contentIds (c : List TItem) : List Str := c.flatMap fun
  | .text _ _ ids => ids.getD []
  | _ => []

section
variable {P : Option (List Str) → Prop} {M : Metrics} {cfg : TCfg}

/-- the ids of parts -/
def IdsAll (P : Option (List Str) → Prop) (l : List TPart) : Prop := ∀ p ∈ l, P p.ids

theorem IdsAll.append {a b : List TPart} (ha : IdsAll P a) (hb : IdsAll P b) : IdsAll P (a ++ b) := by
  intro p hp
  rcases List.mem_append.1 hp with hp | hp
  · exact ha p hp
  · exact hb p hp

theorem onLast_ids {f : TPart → TPart} (hf : ∀ p, (f p).ids = p.ids) : ∀ {l : List TPart}, IdsAll P l → IdsAll P (onLast f l)
  | [], h => h
  | [p], h => by
    intro q hq
    rw [List.mem_singleton.1 hq, hf]
    exact h p List.mem_cons_self
  | p :: q :: l, h => by
    intro r hr
    rcases List.mem_cons.1 hr with rfl | hr
    · exact h _ List.mem_cons_self
    · exact onLast_ids hf (l := q :: l) (fun p hp => h p (List.mem_cons_of_mem _ hp)) r hr

theorem addWords_ids (ws : List Str) (p : TPart) : (ws.foldl (TPart.addWord M) p).ids = p.ids := by
  induction ws generalizing p with
  | nil => rfl
  | cons w ws ih => rw [List.foldl_cons, ih, TPart.addWord_ids]

theorem popWord_ids (p : TPart) : (p.popWord M).ids = p.ids := by
  unfold TPart.popWord
  split
  · rfl
  · split <;> rfl

theorem mergeParts_ids {a b : List TPart} (ha : IdsAll P a) (hb : IdsAll P b) : IdsAll P (mergeParts M a b) := by
  cases a with
  | nil => exact hb
  | cons p ps =>
    cases b with
    | nil => exact ha
    | cons n nx => exact (onLast_ids (fun p => addWords_ids _ p) ha).append fun p hp => hb p (List.mem_cons_of_mem _ hp)

/-- a line and its auxiliary line -/
def TLine.Ids (P : Option (List Str) → Prop) (l : TLine) : Prop := IdsAll P l.parts ∧ IdsAll P l.next

theorem addAccumulated_ids {l : TLine} (h : l.Ids P) : (l.addAccumulated M).Ids P := by
  have h1 : IdsAll P (onLast (fun p => p.addWord M c!" ") (mergeParts M l.parts l.next)) := onLast_ids (fun p => TPart.addWord_ids _ _ _) (mergeParts_ids h.1 h.2)
  refine ⟨h1, ?_⟩
  unfold TLine.addAccumulated
  simp only
  split
  · exact h.2
  · rename_i p hp
    intro q hq
    rw [List.mem_singleton.1 hq]
    exact h1 p (List.mem_of_getLast? hp)

/-- the lines that were placed, and the line that is being filled -/
def RunSt.Ids (P : Option (List Str) → Prop) (r : RunSt) : Prop := r.cur.Ids P ∧ ∀ l ∈ r.lines, IdsAll P l.1.parts

theorem addWord_line_ids {l : TLine} (h : l.Ids P) (w : Str) : (l.addWord M w).1.Ids P ∧ ∀ nl, (l.addWord M w).2 = .finished nl → nl.Ids P := by
  have hn : IdsAll P (onLast (fun p => p.addWord M w) l.next) := onLast_ids (fun p => TPart.addWord_ids _ _ _) h.2
  unfold TLine.addWord
  split
  · split
    · split
      · exact ⟨addAccumulated_ids (l := { l with started := true }) h, fun nl e => by cases e⟩
      · exact ⟨h, fun nl e => by cases e⟩
    · exact ⟨⟨h.1, hn⟩, fun nl e => by cases e⟩
  · split
    · split
      · exact ⟨h, fun nl e => by cases e⟩
      · exact ⟨addAccumulated_ids h, fun nl e => by cases e⟩
    · simp only
      split
      · exact ⟨⟨h.1, hn⟩, fun nl e => by cases e⟩
      · refine ⟨⟨onLast_ids (fun p => ?_) h.1, (by intro p hp; cases hp)⟩, fun nl e => ?_⟩
        · split
          · exact popWord_ids p
          · rfl
        · cases e
          exact ⟨(by intro p hp; cases hp), hn⟩

theorem addCurrentLine_ids {height : Rat} {isLast : Bool} {r : RunSt} (h : r.Ids P) : (addCurrentLine cfg height isLast r).1.Ids P := by
  have hc : (if isLast then { r.cur with parts := r.cur.parts ++ r.cur.next } else r.cur : TLine).Ids P := by
    split
    · exact ⟨h.1.1.append h.1.2, h.1.2⟩
    · exact h.1
  unfold addCurrentLine
  simp only
  generalize (if isLast then { r.cur with parts := r.cur.parts ++ r.cur.next } else r.cur : TLine) = cur at hc
  generalize (if r.firstLineAdded then cur.height * cfg.lineHeight else cur.height) = hh
  by_cases hlt : hh + r.curHeight > height
  · rw [if_pos hlt]
    exact ⟨hc, h.2⟩
  · rw [if_neg hlt]
    refine ⟨hc, ?_⟩
    intro l hl
    rcases List.mem_append.1 hl with hl | hl
    · exact h.2 l hl
    · rw [List.mem_singleton.1 hl]
      exact hc.1

theorem wordLoop_ids {width height : Rat} {i n : Nat} : ∀ (ws : List Str) (k : Nat) {r : RunSt}, r.Ids P → (wordLoop M cfg width height i n ws k r).1.Ids P := by
  intro ws
  induction ws with
  | nil => intro k r h; exact h
  | cons w ws ih =>
    intro k r h
    obtain ⟨h1, h2⟩ := addWord_line_ids (M := M) h.1 w
    unfold wordLoop
    split
    · rename_i l e
      rw [e] at h1
      exact ih _ ⟨h1, h.2⟩
    · rename_i l nl e
      rw [e] at h1 h2
      have h3 : RunSt.Ids P (addCurrentLine cfg height (decide (i + 1 = cfg.content.length) && decide (k + 1 = n)) { r with cur := l }).1 := addCurrentLine_ids ⟨h1, h.2⟩
      have h4 := h2 nl rfl
      simp only
      split
      · exact ih _ ⟨h4, h3.2⟩
      · exact ⟨h4, h3.2⟩
    · rename_i l e
      rw [e] at h1
      exact ih _ ⟨h1, h.2⟩
    · rename_i l e
      rw [e] at h1
      exact ih _ ⟨h1, h.2⟩

theorem addPart_ids {width height : Rat} {i : Nat} {words : List Str} {look : TLook} {ids : Option (List Str)} (hp : P ids) {r : RunSt} (h : r.Ids P) :
    (addPart M cfg width height i words look ids r).1.Ids P := by
  have h0 : RunSt.Ids P { r with cur := r.cur.addLinePart look ids } := by
    refine ⟨⟨h.1.1, h.1.2.append ?_⟩, h.2⟩
    intro p hp'
    rw [List.mem_singleton.1 hp']
    exact hp
  have h1 : RunSt.Ids P (setupList cfg { r with cur := r.cur.addLinePart look ids }) := by
    unfold setupList
    split
    · exact h0
    · split
      · exact h0
      · exact ⟨⟨h0.1.1, h0.1.2⟩, h0.2⟩
  unfold addPart
  simp only
  have h2 := wordLoop_ids (M := M) (cfg := cfg) (width := width) (height := height) (i := i) (n := words.length)
    (words.drop (setupList cfg { r with cur := r.cur.addLinePart look ids }).pos.lastWord) (setupList cfg { r with cur := r.cur.addLinePart look ids }).pos.lastWord
    (r := { setupList cfg { r with cur := r.cur.addLinePart look ids } with curUsed := (setupList cfg { r with cur := r.cur.addLinePart look ids }).curUsed ++ [(look.st.family, look.st.mode)] }) ⟨h1.1, h1.2⟩
  split
  · exact ⟨h2.1, h2.2⟩
  · exact h2

theorem partLoop_ids {width height : Rat} : ∀ (l : List TItem) (i : Nat) {r : RunSt}, (∀ ws look ids, TItem.text ws look ids ∈ l → P ids) → r.Ids P →
    (partLoop M cfg width height l i r).1.Ids P := by
  intro l
  induction l with
  | nil => intro i r _ h; exact h
  | cons a l ih =>
    intro i r hl h
    have hl' : ∀ ws look ids, TItem.text ws look ids ∈ l → P ids := fun ws look ids hm => hl ws look ids (List.mem_cons_of_mem _ hm)
    cases a with
    | skip => exact ih _ hl' h
    | br =>
      simp only [partLoop]
      have h1 : RunSt.Ids P (addCurrentLine cfg height true { r with pos := { r.pos with partAdded := i + 1, wordAdded := 0 } }).1 := addCurrentLine_ids ⟨h.1, h.2⟩
      have h2 : (TLine.new width cfg.align cfg.lineHeight).Ids P := ⟨(by intro p hp; cases hp), (by intro p hp; cases hp)⟩
      split
      · exact ih _ hl' ⟨h2, h1.2⟩
      · exact ⟨h2, h1.2⟩
    | text ws look ids =>
      simp only [partLoop]
      have h1 := addPart_ids (M := M) (cfg := cfg) (width := width) (height := height) (i := i) (words := ws) (look := look) (hl ws look ids List.mem_cons_self) h
      split
      · exact ih _ hl' h1
      · exact h1

theorem textRun_ids {width height : Rat} {pos : TPos} (h : ∀ ws look ids, TItem.text ws look ids ∈ cfg.content → P ids) :
    ∀ l ∈ (textRun M cfg width height pos).lines, IdsAll P l.1.parts := by
  have h0 : RunSt.Ids P (runInit cfg width pos) := ⟨⟨(by intro p hp; cases hp), (by intro p hp; cases hp)⟩, (by intro l hl; cases hl)⟩
  have h1 := partLoop_ids (M := M) (cfg := cfg) (width := width) (height := height) (cfg.content.drop pos.lastPart) pos.lastPart
    (fun ws look ids hm => h ws look ids (List.mem_of_mem_drop hm)) h0
  unfold textRun
  simp only
  split
  · have h2 : RunSt.Ids P (addCurrentLine cfg height true _).1 := addCurrentLine_ids (cfg := cfg) (height := height) (isLast := true) h1
    split
    · exact h2.2
    · exact h2.2
  · exact h1.2

end

section
variable {Q : Str → Prop} {F : TFmt} {M : Metrics} {E : Encs}

theorem addIdRect_keys {id : Str} (hid : Q id) {r : IdRect} {d : List (Str × List IdRect)} (h : ∀ e ∈ d, Q e.1) : ∀ e ∈ addIdRect id r d, Q e.1 := by
  intro e he
  rcases dget_dset_mem he with rfl | he
  · exact hid
  · exact h e he

theorem partIds_keys {p : TPart} (hp : ∀ i ∈ p.ids.getD [], Q i) {x y w : Rat} {d : List (Str × List IdRect)} (h : ∀ e ∈ d, Q e.1) : ∀ e ∈ partIds F p x y w d, Q e.1 := by
  unfold partIds
  simp only
  generalize p.ids.getD [] = l at hp
  induction l generalizing d with
  | nil => exact h
  | cons i l ih => exact ih (addIdRect_keys (hp i List.mem_cons_self) h) fun j hj => hp j (List.mem_cons_of_mem _ hj)

theorem outputParts_keys {y factor : Rat} : ∀ (l : List TPart) {s s' : LoopSt}, IdsAll (fun ids => ∀ i ∈ ids.getD [], Q i) l → (∀ e ∈ s.ids, Q e.1) →
    outputParts F M E y factor l s = .ok s' → ∀ e ∈ s'.ids, Q e.1 := by
  intro l
  induction l with
  | nil => intro s s' _ h hg; cases hg; exact h
  | cons p l ih =>
    intro s s' hl h hg
    simp only [outputParts] at hg
    split at hg
    · cases hg
    · rename_i s1 h1
      refine ih (fun q hq => hl q (List.mem_cons_of_mem _ hq)) ?_ hg
      unfold outputPart at h1
      simp only at h1
      split at h1
      · cases h1
      · split at h1
        · split at h1
          · cases h1
          · cases h1
            exact partIds_keys (hl p List.mem_cons_self) h
        · cases h1
          exact h

theorem streamLines_keys {cfg : TCfg} {enc : Option (Str × Str)} {width : Rat} : ∀ (ls : List (TLine × Bool)) {o o' : OutSt},
    (∀ l ∈ ls, IdsAll (fun ids => ∀ i ∈ ids.getD [], Q i) l.1.parts) → (∀ e ∈ o.ids, Q e.1) → streamLines F M E cfg enc width ls o = .ok o' → ∀ e ∈ o'.ids, Q e.1 := by
  intro ls
  induction ls with
  | nil => intro o o' _ h hg; cases hg; exact h
  | cons l ls ih =>
    intro o o' hl h hg
    simp only [streamLines] at hg
    split at hg
    · cases hg
    · rename_i o1 h1
      refine ih (fun q hq => hl q (List.mem_cons_of_mem _ hq)) ?_ hg
      unfold addLineToStream at h1
      split at h1
      · cases h1
      · simp only at h1
        split at h1
        · cases h1
        · rename_i r hr
          cases h1
          exact outputParts_keys _ (hl l List.mem_cons_self) h hr

/-- the ids that a run notes are ids of the paragraph -/
theorem textOut_keys {cfg : TCfg} {enc : Option (Str × Str)} {width height : Rat} {pos : TPos} {correct : Bool} {o : OutSt}
    (h : textOut F M E cfg enc width height pos correct = .ok o) : ∀ e ∈ o.ids, e.1 ∈ contentIds cfg.content := by
  refine streamLines_keys (Q := fun i => i ∈ contentIds cfg.content) _ (textRun_ids fun ws look ids hm i hi => ?_) (by intro e he; cases he) h
  exact List.mem_flatMap.2 ⟨_, hm, hi⟩

end

end Verif
