import Verif.Lemmas.Text
/-! An induction principle for `textRun`. -/
namespace Verif

/-- the height a line takes, text.py:741-745 -/
def lineH (cfg : TCfg) (r : RunSt) (cur : TLine) : Rat :=
  if r.firstLineAdded then cur.height * cfg.lineHeight else cur.height

/-- the variables after a line was added -/
def accept (cfg : TCfg) (r : RunSt) (cur : TLine) (b : Bool) : RunSt :=
  { pos := { r.pos with partLine := r.pos.partAdded, wordLine := r.pos.wordAdded, isFirstLine := false },
    cur := cur, curHeight := r.curHeight + lineH cfg r cur, firstLineAdded := true,
    lines := r.lines ++ [(cur, b)], used := r.used ++ r.curUsed, curUsed := [] }

/-- the variables after a line did not fit -/
def reject (r : RunSt) (cur : TLine) : RunSt :=
  { r with cur := cur, firstLineAdded := true,
           pos := { r.pos with lastPart := r.pos.partLine, lastWord := r.pos.wordLine } }

/-- the line `add_current_line` adds -/
def closeLine (b : Bool) (l : TLine) : TLine := if b then { l with parts := l.parts ++ l.next } else l

theorem addCurrentLine_eq (cfg : TCfg) (height : Rat) (b : Bool) (r : RunSt) :
    addCurrentLine cfg height b r =
      if lineH cfg r (closeLine b r.cur) + r.curHeight > height then (reject r (closeLine b r.cur), false)
      else (accept cfg r (closeLine b r.cur) b, true) := by
  unfold addCurrentLine lineH closeLine reject accept
  rfl

/-- the variables when a text part begins -/
def partStart (cfg : TCfg) (look : TLook) (ids : Option (List Str)) (r : RunSt) : RunSt :=
  let r1 := setupList cfg { r with cur := r.cur.addLinePart look ids }
  { r1 with curUsed := r1.curUsed ++ [(look.st.family, look.st.mode)] }

theorem setupList_cur (cfg : TCfg) (r : RunSt) : ∃ w, (setupList cfg r).cur = { r.cur with maxWidth := w } := by
  unfold setupList
  split
  · exact ⟨r.cur.maxWidth, rfl⟩
  · split
    · exact ⟨r.cur.maxWidth, rfl⟩
    · exact ⟨_, rfl⟩

theorem TLine.Wf.width {M : Metrics} {l : TLine} (h : l.Wf M) (w : Rat) : ({ l with maxWidth := w } : TLine).Wf M :=
  ⟨h.notStarted, h.start, h.fresh, h.lastSp, h.noBlank, h.okParts, h.okNext⟩

/-- the position `k` is a word of the element the rest of the content begins with -/
def wordAt : List TItem → Nat → Prop
  | .text ws _ _ :: _, k => k ≤ ws.length
  | _, k => k = 0

/-- what has to be shown of an invariant `P` (the variables, the index of the element and of the word that
come next) and of a condition `Q` on runs that stop early -/
structure RunHyp (M : Metrics) (cfg : TCfg) (width height : Rat) (P : RunSt → Nat → Nat → Prop)
    (Q : RunSt → Prop) : Prop where
  added : ∀ r i k ws look ids w l', P r i k → r.cur.Wf M → HasLast r.cur.next look ids →
    cfg.content[i]? = some (.text ws look ids) → ws[k]? = some w → AddCase M r.cur w look ids l' .added →
    P { r with cur := l', pos := { r.pos with partAdded := i, wordAdded := k + 1 } } i (k + 1)
  keep : ∀ r i k ws look ids w l' res, P r i k → r.cur.Wf M → HasLast r.cur.next look ids →
    cfg.content[i]? = some (.text ws look ids) → ws[k]? = some w → AddCase M r.cur w look ids l' res →
    (res = .ignored ∨ res = .preadded) → P { r with cur := l' } i (k + 1)
  finOk : ∀ r i k ws look ids w l' nl b, P r i k → r.cur.Wf M → HasLast r.cur.next look ids →
    cfg.content[i]? = some (.text ws look ids) → ws[k]? = some w → AddCase M r.cur w look ids l' (.finished nl) →
    (b = true → i + 1 = cfg.content.length ∧ k + 1 = ws.length) → ¬ (lineH cfg r l' + r.curHeight > height) →
    P { accept cfg r l' b with cur := { nl with maxWidth := width - cfg.listIndent } } i (k + 1)
  finBad : ∀ r i k ws look ids w l' nl, P r i k → r.cur.Wf M → HasLast r.cur.next look ids →
    cfg.content[i]? = some (.text ws look ids) → ws[k]? = some w → AddCase M r.cur w look ids l' (.finished nl) →
    lineH cfg r l' + r.curHeight > height →
    Q { reject r l' with cur := { nl with maxWidth := width - cfg.listIndent } }
  part : ∀ r i k ws look ids, P r i k → r.cur.Wf M → cfg.content[i]? = some (.text ws look ids) →
    P (partStart cfg look ids r) i k
  partEnd : ∀ r i ws look ids, P r i ws.length → r.cur.Wf M → cfg.content[i]? = some (.text ws look ids) →
    P { r with pos := { r.pos with lastWord := 0 } } (i + 1) 0
  skip : ∀ r i, P r i 0 → r.cur.Wf M → cfg.content[i]? = some .skip → P r (i + 1) 0
  brOk : ∀ r i, P r i 0 → r.cur.Wf M → cfg.content[i]? = some .br →
    ¬ (lineH cfg r (closeLine true r.cur) + r.curHeight > height) →
    P { accept cfg { r with pos := { r.pos with partAdded := i + 1, wordAdded := 0 } } (closeLine true r.cur) true with
        cur := TLine.new width cfg.align cfg.lineHeight } (i + 1) 0
  brBad : ∀ r i, P r i 0 → r.cur.Wf M → cfg.content[i]? = some .br →
    lineH cfg r (closeLine true r.cur) + r.curHeight > height →
    Q { reject { r with pos := { r.pos with partAdded := i + 1, wordAdded := 0 } } (closeLine true r.cur) with
        cur := TLine.new width cfg.align cfg.lineHeight }

variable {M : Metrics} {cfg : TCfg} {width height : Rat} {P : RunSt → Nat → Nat → Prop} {Q : RunSt → Prop}

theorem wordLoop_ind (H : RunHyp M cfg width height P Q) (i : Nat) (words : List Str) (look : TLook)
    (ids : Option (List Str)) (hc : cfg.content[i]? = some (.text words look ids)) :
    ∀ (ws : List Str) (k : Nat) (r : RunSt), words.drop k = ws → k ≤ words.length → r.cur.Wf M →
      HasLast r.cur.next look ids → P r i k →
      if (wordLoop M cfg width height i words.length ws k r).2 then
        (wordLoop M cfg width height i words.length ws k r).1.cur.Wf M ∧
          P (wordLoop M cfg width height i words.length ws k r).1 i words.length
      else Q (wordLoop M cfg width height i words.length ws k r).1 := by
  intro ws
  induction ws with
  | nil =>
    intro k r hd hk wf hl hP
    have : k = words.length := by
      have := congrArg List.length hd; simp at this; omega
    subst this
    simp only [wordLoop, if_true]
    exact ⟨wf, hP⟩
  | cons w ws ih =>
    intro k r hd hk wf hl hP
    have hkw : words[k]? = some w := by
      have : (words.drop k)[0]? = some w := by rw [hd]; rfl
      simpa using this
    have hd' : words.drop (k + 1) = ws := by
      rw [← List.tail_drop, hd]; rfl
    have hk' : k + 1 ≤ words.length := by
      have := congrArg List.length hd; simp at this; omega
    have hcase := addWord_cases M r.cur w look ids wf hl
    unfold wordLoop
    generalize he : r.cur.addWord M w = e at hcase
    obtain ⟨l', res⟩ := e
    simp only at hcase
    cases res with
    | added =>
      have hP' := H.added r i k words look ids w l' hP wf hl hc hkw hcase
      have : l'.Wf M ∧ HasLast l'.next look ids := by
        cases hcase with
        | first _ _ _ _ _ _ _ a b => exact ⟨a, b⟩
        | accum _ _ _ _ _ _ _ a b => exact ⟨a, b⟩
      exact ih (k + 1) _ hd' hk' this.1 this.2 hP'
    | ignored =>
      have hP' := H.keep r i k words look ids w l' _ hP wf hl hc hkw hcase (Or.inl rfl)
      have : l'.Wf M ∧ HasLast l'.next look ids := by
        cases hcase; exact ⟨wf, hl⟩
      exact ih (k + 1) _ hd' hk' this.1 this.2 hP'
    | preadded =>
      have hP' := H.keep r i k words look ids w l' _ hP wf hl hc hkw hcase (Or.inr rfl)
      have : l'.Wf M ∧ HasLast l'.next look ids := by
        cases hcase with
        | preadded _ _ _ _ _ _ _ _ a b => exact ⟨a, b⟩
      exact ih (k + 1) _ hd' hk' this.1 this.2 hP'
    | finished nl =>
      have h2 : l'.next = [] ∧ nl.Wf M ∧ HasLast nl.next look ids := by
        cases hcase with
        | finished _ _ _ _ _ hn _ _ _ _ _ _ _ _ _ a b => exact ⟨hn, a, b⟩
      have hcl : ∀ b, closeLine b l' = l' := by
        intro b; unfold closeLine; cases b
        · rfl
        · have := h2.1
          obtain ⟨_, _, _, _, nx, _, _, _⟩ := l'
          simp only at this
          subst this
          simp
      have hbad := H.finBad r i k words look ids w l' nl hP wf hl hc hkw hcase
      have hok := fun b => H.finOk r i k words look ids w l' nl b hP wf hl hc hkw hcase
      by_cases hh : lineH cfg r l' + r.curHeight > height
      · have := addCurrentLine_eq cfg height (decide (i + 1 = cfg.content.length) && decide (k + 1 = words.length)) { r with cur := l' }
        simp only [hcl] at this
        rw [if_pos (show lineH cfg { r with cur := l' } l' + r.curHeight > height from hh)] at this
        simp only [this]
        exact hbad hh
      · have := addCurrentLine_eq cfg height (decide (i + 1 = cfg.content.length) && decide (k + 1 = words.length)) { r with cur := l' }
        simp only [hcl] at this
        rw [if_neg (show ¬ (lineH cfg { r with cur := l' } l' + r.curHeight > height) from hh)] at this
        simp only [this, if_true]
        exact ih (k + 1) _ hd' hk' (h2.2.1.width _) h2.2.2 (hok _ (by simp) hh)

theorem addPart_ind (H : RunHyp M cfg width height P Q) (i : Nat) (words : List Str) (look : TLook)
    (ids : Option (List Str)) (hc : cfg.content[i]? = some (.text words look ids)) (r : RunSt)
    (hk : r.pos.lastWord ≤ words.length) (wf : r.cur.Wf M) (hP : P r i r.pos.lastWord) :
    if (addPart M cfg width height i words look ids r).2 then
      (addPart M cfg width height i words look ids r).1.cur.Wf M ∧
      (addPart M cfg width height i words look ids r).1.pos.lastWord = 0 ∧
      P (addPart M cfg width height i words look ids r).1 (i + 1) 0
    else Q (addPart M cfg width height i words look ids r).1 := by
  have hlw : (partStart cfg look ids r).pos.lastWord = r.pos.lastWord := by
    unfold partStart setupList
    simp only []
    split
    · rfl
    · split <;> rfl
  have hwf : (partStart cfg look ids r).cur.Wf M ∧ HasLast (partStart cfg look ids r).cur.next look ids := by
    obtain ⟨w, hw⟩ := setupList_cur cfg { r with cur := r.cur.addLinePart look ids }
    obtain ⟨a, b, _⟩ := r.cur.addLinePart_wf M look ids wf
    have : (partStart cfg look ids r).cur = { r.cur.addLinePart look ids with maxWidth := w } := hw
    rw [this]
    exact ⟨a.width w, b⟩
  have hP' := H.part r i r.pos.lastWord words look ids hP wf hc
  have := wordLoop_ind H i words look ids hc (words.drop r.pos.lastWord) r.pos.lastWord (partStart cfg look ids r)
    rfl hk hwf.1 hwf.2 hP'
  have hdef : addPart M cfg width height i words look ids r =
      if (wordLoop M cfg width height i words.length (words.drop (partStart cfg look ids r).pos.lastWord) (partStart cfg look ids r).pos.lastWord (partStart cfg look ids r)).2 then
        ({ (wordLoop M cfg width height i words.length (words.drop (partStart cfg look ids r).pos.lastWord) (partStart cfg look ids r).pos.lastWord (partStart cfg look ids r)).1 with
          pos := { (wordLoop M cfg width height i words.length (words.drop (partStart cfg look ids r).pos.lastWord) (partStart cfg look ids r).pos.lastWord (partStart cfg look ids r)).1.pos with lastWord := 0 } }, true)
      else wordLoop M cfg width height i words.length (words.drop (partStart cfg look ids r).pos.lastWord) (partStart cfg look ids r).pos.lastWord (partStart cfg look ids r) := rfl
  rw [hdef, hlw]
  generalize wordLoop M cfg width height i words.length (words.drop r.pos.lastWord) r.pos.lastWord (partStart cfg look ids r) = a at this
  obtain ⟨a1, a2⟩ := a
  cases a2 with
  | true =>
    simp only [if_true] at this
    simp only [if_true]
    exact ⟨this.1, by trivial, H.partEnd a1 i words look ids this.2 this.1 hc⟩
  | false =>
    simp only [Bool.false_eq_true, if_false] at this
    simp only [Bool.false_eq_true, if_false]
    exact this

theorem partLoop_ind (H : RunHyp M cfg width height P Q) : ∀ (l : List TItem) (i : Nat) (r : RunSt),
    cfg.content.drop i = l → i ≤ cfg.content.length → wordAt l r.pos.lastWord → r.cur.Wf M → P r i r.pos.lastWord →
    if (partLoop M cfg width height l i r).2 then
      (partLoop M cfg width height l i r).1.cur.Wf M ∧ P (partLoop M cfg width height l i r).1 cfg.content.length 0
    else Q (partLoop M cfg width height l i r).1 := by
  intro l
  induction l with
  | nil =>
    intro i r hd hi hw wf hP
    have : i = cfg.content.length := by
      have := congrArg List.length hd; simp at this; omega
    subst this
    simp only [partLoop, if_true]
    have h0 : r.pos.lastWord = 0 := hw
    rw [h0] at hP
    exact ⟨wf, hP⟩
  | cons x l ih =>
    intro i r hd hi hw wf hP
    have hix : cfg.content[i]? = some x := by
      have : (cfg.content.drop i)[0]? = some x := by rw [hd]; rfl
      simpa using this
    have hd' : cfg.content.drop (i + 1) = l := by
      rw [← List.tail_drop, hd]; rfl
    have hi' : i + 1 ≤ cfg.content.length := by
      have := congrArg List.length hd; simp at this; omega
    have hw0 : ∀ l : List TItem, wordAt l 0 := by
      intro l; cases l with
      | nil => rfl
      | cons y l => cases y <;> simp [wordAt]
    cases x with
    | skip =>
      have h0 : r.pos.lastWord = 0 := hw
      rw [h0] at hP
      have hP' := H.skip r i hP wf hix
      simp only [partLoop]
      exact ih (i + 1) r hd' hi' (by rw [h0]; exact hw0 l) wf (by rw [h0]; exact hP')
    | br =>
      have h0 : r.pos.lastWord = 0 := hw
      rw [h0] at hP
      simp only [partLoop]
      rw [addCurrentLine_eq]
      by_cases hh : lineH cfg r (closeLine true r.cur) + r.curHeight > height
      · have hQ := H.brBad r i hP wf hix hh
        have hh' : lineH cfg { r with pos := { r.pos with partAdded := i + 1, wordAdded := 0 } } (closeLine true r.cur) + r.curHeight > height := hh
        simp only [hh', if_true]
        exact hQ
      · have hP' := H.brOk r i hP wf hix hh
        have hh' : ¬ lineH cfg { r with pos := { r.pos with partAdded := i + 1, wordAdded := 0 } } (closeLine true r.cur) + r.curHeight > height := hh
        simp only [hh', if_false, if_true]
        exact ih (i + 1) _ hd' hi' (by change wordAt l r.pos.lastWord; rw [h0]; exact hw0 l) (TLine.new_wf M _ _ _)
          (by
            have e : (accept cfg { r with pos := { r.pos with partAdded := i + 1, wordAdded := 0 } } (closeLine true r.cur) true).pos.lastWord = 0 := h0
            simp only [e]; exact hP')
    | text words look ids =>
      have := addPart_ind H i words look ids hix r hw wf hP
      have hb : ∀ b : Bool, b = true ∨ b = false := by decide
      rcases hb (addPart M cfg width height i words look ids r).2 with ha | ha
      · have e : partLoop M cfg width height (.text words look ids :: l) i r =
            partLoop M cfg width height l (i + 1) (addPart M cfg width height i words look ids r).1 := by
          simp only [partLoop, ha, if_true]
        rw [if_pos ha] at this
        rw [e]
        exact ih (i + 1) _ hd' hi' (by rw [this.2.1]; exact hw0 l) this.1 (by rw [this.2.1]; exact this.2.2)
      · have e : partLoop M cfg width height (.text words look ids :: l) i r =
            addPart M cfg width height i words look ids r := by
          simp only [partLoop, ha, Bool.false_eq_true, if_false]
        have hne : ¬ (addPart M cfg width height i words look ids r).2 = true := by rw [ha]; simp
        rw [if_neg hne] at this
        rw [e, if_neg hne]
        exact this

/-- A run either stops early (`Q`), or it reaches the end, and then its last line may or may not fit. -/
theorem textRun_ind (H : RunHyp M cfg width height P Q) (pos : TPos)
    (hpos : wordAt (cfg.content.drop pos.lastPart) pos.lastWord) (hle : pos.lastPart ≤ cfg.content.length)
    (h0 : P (runInit cfg width pos) pos.lastPart pos.lastWord) (R : RunSt → Prop)
    (hQ : ∀ r, Q r → R r)
    (hok : ∀ r, P r cfg.content.length 0 → r.cur.Wf M →
      ¬ (lineH cfg r (closeLine true r.cur) + r.curHeight > height) →
      R { accept cfg r (closeLine true r.cur) true with
          pos := { (accept cfg r (closeLine true r.cur) true).pos with finished := true } })
    (hbad : ∀ r, P r cfg.content.length 0 → r.cur.Wf M →
      lineH cfg r (closeLine true r.cur) + r.curHeight > height → R (reject r (closeLine true r.cur))) :
    R (textRun M cfg width height pos) := by
  have := partLoop_ind H (cfg.content.drop pos.lastPart) pos.lastPart (runInit cfg width pos) rfl hle hpos
    (TLine.new_wf M _ _ _) h0
  unfold textRun
  generalize partLoop M cfg width height (cfg.content.drop pos.lastPart) pos.lastPart (runInit cfg width pos) = a at this
  obtain ⟨a1, a2⟩ := a
  cases a2 with
  | false =>
    simp only [Bool.false_eq_true, if_false] at this ⊢
    exact hQ _ this
  | true =>
    simp only [if_true] at this ⊢
    rw [addCurrentLine_eq]
    by_cases hh : lineH cfg a1 (closeLine true a1.cur) + a1.curHeight > height
    · simp only [hh, if_true, Bool.false_eq_true, if_false]
      exact hbad a1 this.2 this.1 hh
    · simp only [hh, if_false, if_true]
      exact hok a1 this.2 this.1 hh

end Verif
